import Verif.Reader
/-!
# Specification vocabulary for the reader's results

Where schemas and fields occur in what a source file was read as, and what a legal union is.
-/

namespace Avdl.Spec

/-- `s` occurs in the second schema (as the whole, or nested at any depth). -/
inductive Occurs (s : Schema) : Schema → Prop
  | self : Occurs s s
  | field {n ns d fs e al ps f} : f ∈ fs → Occurs s f.schema → Occurs s (.record n ns d fs e al ps)
  | items {i ps} : Occurs s i → Occurs s (.array i ps)
  | values {i ps} : Occurs s i → Occurs s (.map i ps)
  | branch {ts b t} : t ∈ ts → Occurs s t → Occurs s (.union ts b)

/-- The types a file declares. -/
inductive Declares (r : ReadResult) : Schema → Prop
  | decl {s span spans} : DeclItem.type s span spans ∈ r.decls → Declares r s

/-- The messages of a file that is a protocol. -/
inductive HasMessage (r : ReadResult) : String → Message → Prop
  | message {p n m} : r.file = .protocol p → (n, m) ∈ p.messages → HasMessage r n m

/-- The fields of declared records and the parameters of messages. -/
inductive HasField (r : ReadResult) : Field → Prop
  | field {n ns d fs e al ps f} : Declares r (.record n ns d fs e al ps) → f ∈ fs → HasField r f
  | param {n m f} : HasMessage r n m → f ∈ m.request → HasField r f

/-- The schemas a file consists of: declared types, main schema, and the parameter, response and
error types of messages. -/
inductive HasSchema (r : ReadResult) : Schema → Prop
  | declared {s} : Declares r s → HasSchema r s
  | main {s} : r.file = .schema s → HasSchema r s
  | param {n m f} : HasMessage r n m → f ∈ m.request → HasSchema r f.schema
  | response {n m} : HasMessage r n m → HasSchema r m.response
  | error {n m es s} : HasMessage r n m → m.errors = some es → s ∈ es → HasSchema r s

/-- What distinguishes the branches of a union: the unnamed type or the full name. -/
inductive Branch where
  | primitive (p : Prim)
  | array
  | map
  | union
  | named (fullName : String)
deriving DecidableEq

/-- The kind of branch a schema makes.  Annotations and logical types do not matter. -/
def branch : Schema → Branch
  | .prim p | .annotated p _ => .primitive p
  | .logical lt _ => .primitive lt.base
  | .array .. => .array
  | .map .. => .map
  | .union .. => .union
  | .record n ns .. | .enum n ns .. | .fixed n ns .. | .ref n ns .. => .named (makeFullName n ns)

/-- A legal Avro union: no branch is a union, no two branches are of the same unnamed type or of
the same full name. -/
def LegalUnion (ts : List Schema) : Prop :=
  (∀ t ∈ ts, branch t ≠ .union) ∧ ts.Pairwise fun a b => branch a ≠ branch b

instance (ts : List Schema) : Decidable (LegalUnion ts) := by unfold LegalUnion; infer_instance

end Avdl.Spec
