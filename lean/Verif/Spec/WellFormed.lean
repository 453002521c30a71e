import Verif.Schema
/-!
# Well-formedness conditions on schemas used as hypotheses

`Everywhere P Q e s`: every schema node of `s`, taken with the namespace it occurs in, satisfies
`P`, and every record field satisfies `Q`.  `e` is the namespace `s` itself occurs in (`""` for
none); a record's fields occur in the record's own namespace if it has one.
-/

namespace Avdl

/-- Namespace as a string; `""` is the null namespace. -/
def nsStr (ns : Option String) : String := ns.getD ""

/-- A name without dots. -/
def DotFree (n : String) : Prop := '.' ∉ n.toList

instance (n : String) : Decidable (DotFree n) := by unfold DotFree; infer_instance

/-- Namespace in which the fields of a record with namespace attribute `ns` occur. -/
def innerNs (ns : Option String) (e : String) : String := ns.getD e

mutual
def Schema.Everywhere (P : String → Schema → Prop) (Q : Field → Prop) (e : String) :
    Schema → Prop
  | .record n ns d fs er al ps =>
      P e (.record n ns d fs er al ps) ∧ Schema.EverywhereF P Q (innerNs ns e) fs
  | .array i ps => P e (.array i ps) ∧ Schema.Everywhere P Q e i
  | .map i ps => P e (.map i ps) ∧ Schema.Everywhere P Q e i
  | .union ts b => P e (.union ts b) ∧ Schema.EverywhereL P Q e ts
  | .prim p => P e (.prim p)
  | .enum a b c d e' f g => P e (.enum a b c d e' f g)
  | .fixed a b c d e' f => P e (.fixed a b c d e' f)
  | .annotated k ps => P e (.annotated k ps)
  | .logical lt ps => P e (.logical lt ps)
  | .ref n ns ps sp => P e (.ref n ns ps sp)
def Schema.EverywhereF (P : String → Schema → Prop) (Q : Field → Prop) (e : String) :
    List Field → Prop
  | [] => True
  | .mk n s d df o al ps :: fs =>
      Q (.mk n s d df o al ps) ∧ Schema.Everywhere P Q e s ∧ Schema.EverywhereF P Q e fs
def Schema.EverywhereL (P : String → Schema → Prop) (Q : Field → Prop) (e : String) :
    List Schema → Prop
  | [] => True
  | s :: ss => Schema.Everywhere P Q e s ∧ Schema.EverywhereL P Q e ss
end

theorem Schema.everywhereF_iff {P : String → Schema → Prop} {Q : Field → Prop} {e : String}
    (fs : List Field) : Schema.EverywhereF P Q e fs ↔
      ∀ f ∈ fs, Q f ∧ Schema.Everywhere P Q e f.schema := by
  induction fs with
  | nil => simp [Schema.EverywhereF]
  | cons f fs ih => cases f; simp [Schema.EverywhereF, ih, Field.schema, and_assoc]

theorem Schema.everywhereL_iff {P : String → Schema → Prop} {Q : Field → Prop} {e : String}
    (ss : List Schema) : Schema.EverywhereL P Q e ss ↔
      ∀ s ∈ ss, Schema.Everywhere P Q e s := by
  induction ss with
  | nil => simp [Schema.EverywhereL]
  | cons f fs ih => simp [Schema.EverywhereL, ih]

/-- No custom property is called like one of the given keys. -/
def Props.Avoids (ps : Props) (keys : List String) : Prop := ∀ kv ∈ ps, kv.1 ∉ keys

instance (ps : Props) (keys : List String) : Decidable (ps.Avoids keys) := by
  unfold Props.Avoids; infer_instance

/-- The type is a definition of a named type. -/
def Schema.IsNamed : Schema → Prop
  | .record .. | .enum .. | .fixed .. => True
  | _ => False

instance (s : Schema) : Decidable s.IsNamed := by
  unfold Schema.IsNamed; cases s <;> infer_instance

/-- Namespace attribute of a named type. -/
def Schema.nsOf : Schema → Option String
  | .record _ ns .. | .enum _ ns .. | .fixed _ ns .. | .ref _ ns .. => ns
  | _ => none

/-- Conditions on a single definition or reference of a named type occurring in namespace `e`: a
dot-free name which, unless qualified by a namespace, is not a primitive's name; and a type in
the null namespace occurs only in the null namespace. -/
def RefOk (e n : String) (ns : Option String) : Prop :=
  DotFree n ∧ (nsStr ns = "" → n ∉ primitiveTypeNames) ∧ (nsStr ns = "" → e = "")

instance (e n ns) : Decidable (RefOk e n ns) := by unfold RefOk; infer_instance

/-- Node condition for faithful output: definition/reference conditions, custom properties do
not use structural keys, and references are to types known to `known`. -/
def OutNode (known : String → Prop) (e : String) : Schema → Prop
  | .record n ns _ _ _ _ ps =>
      RefOk e n ns ∧ ps.Avoids ["type", "name", "namespace", "doc", "fields", "aliases"]
  | .enum n ns _ _ _ _ ps =>
      RefOk e n ns ∧
        ps.Avoids ["type", "name", "namespace", "doc", "symbols", "default", "aliases"]
  | .fixed n ns _ _ _ ps =>
      RefOk e n ns ∧ ps.Avoids ["type", "name", "namespace", "doc", "size", "aliases"]
  | .array _ ps => ps.Avoids ["type", "items"]
  | .map _ ps => ps.Avoids ["type", "values"]
  | .union _ _ => True
  | .prim _ => True
  | .annotated _ ps => ps.Avoids ["type"]
  | .logical _ ps => ps.Avoids ["type"]
  | .ref n ns _ _ => RefOk e n ns ∧ known (makeFullName n ns)

/-- Field condition for faithful output. -/
def OutField (f : Field) : Prop :=
  f.props.Avoids ["name", "type", "doc", "default", "order", "aliases"]

/-- A schema all of whose nodes, in their namespaces, satisfy the output conditions. -/
def Schema.OutOk (known : String → Prop) (e : String) (s : Schema) : Prop :=
  s.Everywhere (OutNode known) OutField e

end Avdl
