import Verif.Schema
import Verif.Spec.Source
/-!
# Specification: the same data in another hash-map order
-/

namespace Avdl.Spec

/-- The same hash map, iterated in two orders (a map has each key once). -/
def SameMap {α : Type} (p q : List (String × α)) : Prop :=
  p.Perm q ∧ (p.map Prod.fst).Nodup

mutual
/-- The same schema, with other iteration orders of the annotation maps in it. -/
inductive Reordered : Schema → Schema → Prop
  | prim {p} : Reordered (.prim p) (.prim p)
  | record {n ns d fs fs' e al ps ps'} : ReorderedFields fs fs' → SameMap ps ps' →
      Reordered (.record n ns d fs e al ps) (.record n ns d fs' e al ps')
  | enum {n ns d sy df al ps ps'} : SameMap ps ps' →
      Reordered (.enum n ns d sy df al ps) (.enum n ns d sy df al ps')
  | fixed {n ns d sz al ps ps'} : SameMap ps ps' →
      Reordered (.fixed n ns d sz al ps) (.fixed n ns d sz al ps')
  | array {i i' ps ps'} : Reordered i i' → SameMap ps ps' → Reordered (.array i ps) (.array i' ps')
  | map {i i' ps ps'} : Reordered i i' → SameMap ps ps' → Reordered (.map i ps) (.map i' ps')
  | union {ts ts' b} : ReorderedList ts ts' → Reordered (.union ts b) (.union ts' b)
  | annotated {k ps ps'} : SameMap ps ps' → Reordered (.annotated k ps) (.annotated k ps')
  | logical {l ps ps'} : SameMap ps ps' → Reordered (.logical l ps) (.logical l ps')
  | ref {n ns ps ps' sp} : SameMap ps ps' → Reordered (.ref n ns ps sp) (.ref n ns ps' sp)
inductive ReorderedFields : List Field → List Field → Prop
  | nil : ReorderedFields [] []
  | cons {n s s' d df o al ps ps' fs fs'} : Reordered s s' → SameMap ps ps' →
      ReorderedFields fs fs' →
      ReorderedFields (.mk n s d df o al ps :: fs) (.mk n s' d df o al ps' :: fs')
inductive ReorderedList : List Schema → List Schema → Prop
  | nil : ReorderedList [] []
  | cons {s s' ss ss'} : Reordered s s' → ReorderedList ss ss' →
      ReorderedList (s :: ss) (s' :: ss')
end

/-- The same message. -/
structure ReorderedMessage (m m' : Message) : Prop where
  doc : m.doc = m'.doc
  props : SameMap m.props m'.props
  request : ReorderedFields m.request m'.request
  response : Reordered m.response m'.response
  errors : (m.errors = none ∧ m'.errors = none) ∨
    ∃ es es', m.errors = some es ∧ m'.errors = some es' ∧ ReorderedList es es'
  oneWay : m.oneWay = m'.oneWay

/-- The same protocol: the types are in the same order, the messages in any order. -/
structure ReorderedProtocol (p p' : Protocol) : Prop where
  name : p.name = p'.name
  ns : p.ns = p'.ns
  doc : p.doc = p'.doc
  props : SameMap p.props p'.props
  types : ReorderedList p.types p'.types
  messages : ∃ ms, SameMap p.messages ms ∧
    Matching (fun a b => a.1 = b.1 ∧ ReorderedMessage a.2 b.2) ms p'.messages

end Avdl.Spec
