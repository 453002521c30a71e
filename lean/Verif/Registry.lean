import Verif.Schema
/-!
# The type registry

Model of /repo/src/resolve.rs 85-262.
-/

namespace Avdl

/-- Errors of `SchemaRegistry::register`, /repo/src/resolve.rs 109-137.  `panic` stands for the
`unreachable!` at line 129. -/
inductive RegErr where
  | notNamed
  | panic
  | invalidName (name : String) (ns : Option String)
  | duplicate (fullName : String)
deriving DecidableEq, Repr

/-- `SchemaRegistry`: an `IndexMap` from full name to schema, /repo/src/resolve.rs 85-88, as an
association list in insertion order. -/
abbrev Registry := List (String × Schema)

namespace Registry

/-- `lookup`, /repo/src/resolve.rs 140-142. -/
def find? : Registry → String → Option Schema
  | [], _ => none
  | (k, s) :: t, key => if k = key then some s else find? t key

/-- `contains_key`. -/
def contains (r : Registry) (key : String) : Bool := (r.find? key).isSome

/-- `schemas`, /repo/src/resolve.rs 145-147. -/
def schemas (r : Registry) : List Schema := r.map Prod.snd

/-- `names`, /repo/src/resolve.rs 151-153. -/
def names (r : Registry) : List String := r.map Prod.fst

/-- `register`, /repo/src/resolve.rs 109-137. -/
def register [CharTables] (r : Registry) (s : Schema) : Except RegErr Registry :=
  match s with
  | .record name ns .. | .enum name ns .. | .fixed name ns .. =>
      if !validateSchemaName name ns then .error (.invalidName name ns)
      else if r.contains (makeFullName name ns) then .error (.duplicate (makeFullName name ns))
      else .ok (r ++ [(makeFullName name ns, s)])
  | .ref .. => .error .panic
  | _ => .error .notNamed

end Registry

mutual
/-- `collect_unresolved_refs`, /repo/src/resolve.rs 225-262.  The accumulator argument is
replaced by concatenation. -/
def unresolvedRefs (known : String → Bool) : Schema → List (String × Option Span)
  | .ref n ns _ sp => if known (makeFullName n ns) then [] else [(makeFullName n ns, sp)]
  | .record _ _ _ fs _ _ _ => unresolvedRefsFields known fs
  | .array i _ => unresolvedRefs known i
  | .map i _ => unresolvedRefs known i
  | .union ts _ => unresolvedRefsList known ts
  | .prim _ | .enum .. | .fixed .. | .annotated .. | .logical .. => []
/-- The field loop of `collect_unresolved_refs`, lines 242-244. -/
def unresolvedRefsFields (known : String → Bool) : List Field → List (String × Option Span)
  | [] => []
  | .mk _ s _ _ _ _ _ :: fs => unresolvedRefs known s ++ unresolvedRefsFields known fs
/-- The union loop of `collect_unresolved_refs`, lines 253-255. -/
def unresolvedRefsList (known : String → Bool) : List Schema → List (String × Option Span)
  | [] => []
  | s :: ss => unresolvedRefs known s ++ unresolvedRefsList known ss
end

namespace Registry

/-- `validate_references`, /repo/src/resolve.rs 188-194. -/
def validateReferences (r : Registry) : List (String × Option Span) :=
  r.schemas.flatMap (unresolvedRefs r.contains)

/-- `validate_schema`, /repo/src/resolve.rs 208-212. -/
def validateSchema (r : Registry) (s : Schema) : List (String × Option Span) :=
  unresolvedRefs r.contains s

end Registry

end Avdl
