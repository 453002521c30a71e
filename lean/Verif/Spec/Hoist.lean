import Verif.Import
import Verif.Spec.Flat
/-!
# Specification: hoisting nested definitions
-/

namespace Avdl

mutual
/-- All definitions in a schema, inner ones first. -/
def definitions : Schema → List Schema
  | .record n ns d fs e al ps => definitionsF fs ++ [.record n ns d fs e al ps]
  | .enum n ns d sy df al ps => [.enum n ns d sy df al ps]
  | .fixed n ns d sz al ps => [.fixed n ns d sz al ps]
  | .array i _ => definitions i
  | .map i _ => definitions i
  | .union ts _ => definitionsL ts
  | .prim _ | .annotated .. | .logical .. | .ref .. => []
/-- All definitions in the types of fields. -/
def definitionsF : List Field → List Schema
  | [] => []
  | .mk _ s _ _ _ _ _ :: fs => definitions s ++ definitionsF fs
/-- All definitions in the schemas of a list. -/
def definitionsL : List Schema → List Schema
  | [] => []
  | s :: ss => definitions s ++ definitionsL ss
end

namespace Spec

/-- `t` is a definition of a named type that occurs in `s` (possibly `s` itself). -/
inductive Defines : Schema → Schema → Prop
  | here {s} : s.IsNamed → Defines s s
  | field {n ns d fs e al ps f t} : f ∈ fs → Defines f.schema t →
      Defines (.record n ns d fs e al ps) t
  | items {i ps t} : Defines i t → Defines (.array i ps) t
  | values {i ps t} : Defines i t → Defines (.map i ps) t
  | branch {ts b s t} : s ∈ ts → Defines s t → Defines (.union ts b) t

/-- The field with another type. -/
def withType (f : Field) (s : Schema) : Field :=
  .mk f.name s f.doc f.default f.order f.aliases f.props

mutual
/-- The schema with each definition in it replaced by a reference to the name it defines. -/
def outline : Schema → Schema
  | .record n ns .. | .enum n ns .. | .fixed n ns .. => .ref n ns [] none
  | .array i ps => .array (outline i) ps
  | .map i ps => .map (outline i) ps
  | .union ts b => .union (outlineList ts) b
  | .prim p => .prim p
  | .annotated k ps => .annotated k ps
  | .logical l ps => .logical l ps
  | .ref n ns ps sp => .ref n ns ps sp
def outlineList : List Schema → List Schema
  | [] => []
  | s :: ss => outline s :: outlineList ss
end

/-- The definition with each definition nested in it replaced by a reference. -/
def outlineDef : Schema → Schema
  | .record n ns d fs e al ps =>
      .record n ns d (fs.map fun f => withType f (outline f.schema)) e al ps
  | s => s

/-- `s'` is `s` with some of the references replaced by definitions from the table, in which
references may again be replaced. -/
inductive Expands (table : List Schema) : Schema → Schema → Prop
  | prim {p} : Expands table (.prim p) (.prim p)
  | annotated {k ps} : Expands table (.annotated k ps) (.annotated k ps)
  | logical {l ps} : Expands table (.logical l ps) (.logical l ps)
  | ref {n ns ps sp} : Expands table (.ref n ns ps sp) (.ref n ns ps sp)
  | array {i i' ps} : Expands table i i' → Expands table (.array i ps) (.array i' ps)
  | map {i i' ps} : Expands table i i' → Expands table (.map i ps) (.map i' ps)
  | union {ts ts' b} : ts.length = ts'.length →
      (∀ (k : Nat) s s', ts[k]? = some s → ts'[k]? = some s' → Expands table s s') →
      Expands table (.union ts b) (.union ts' b)
  | enum {n ns d sy df al ps} : .enum n ns d sy df al ps ∈ table →
      Expands table (.ref n ns [] none) (.enum n ns d sy df al ps)
  | fixed {n ns d sz al ps} : .fixed n ns d sz al ps ∈ table →
      Expands table (.ref n ns [] none) (.fixed n ns d sz al ps)
  | record {n ns d fs fs' e al ps} : .record n ns d fs e al ps ∈ table →
      fs.length = fs'.length →
      (∀ (k : Nat) f f', fs[k]? = some f → fs'[k]? = some f' →
        f' = withType f f'.schema) →
      (∀ (k : Nat) f f', fs[k]? = some f → fs'[k]? = some f' →
        Expands table f.schema f'.schema) →
      Expands table (.ref n ns [] none) (.record n ns d fs' e al ps)

end Spec

end Avdl
