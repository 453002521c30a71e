import Verif.Lemmas.RoundTripProtocol
import Verif.Props.Output
/-!
# C23: exported JSON re-imports to the same types
-/

namespace Avdl.Props

open Spec

theorem acceptable_lookup [CharTables] {d : Option String} {types : List Schema}
    (H : TableOk d types) (hac : ∀ t ∈ types, Acceptable t) :
    ∀ full t, (buildLookup types d).get? full = some t → Acceptable t :=
  fun _ t h => hac t (H.lookup_iff.1 h).1

/-- **C23 for a protocol, partial.** Importing the document written for a protocol into an empty
registry succeeds.  It registers exactly the names of the protocol's types, each with a definition
that is the same as the protocol's, and yields exactly the protocol's messages, each the same.

Full property: for all protocols.  The hypotheses are those of `C04`/`C06` (`ProtocolOk`: distinct
names, resolved references, no annotation called like a structural key, no type without namespace
used inside one), the registry's conditions on names (which hold for all registered types), that
each message has one name, and `InOk`/`InMessage`: annotations are maps, references carry no
annotations, no alias `.X`, numbers in the ranges of the data types, and no annotations that name
a logical type on a primitive.  Where the last one fails, the type is changed, see
`C23_fails_logical_base`; annotations on references are never written, see
`C23_fails_reference_annotations`. -/
theorem C23_protocol_partial [CharTables] (p : Protocol) (H : ProtocolOk p)
    (hin : ∀ t ∈ p.types, InOk t ∧ Acceptable t)
    (hmsg : ∀ nm ∈ p.messages, InMessage nm.2) (hdist : (p.messages.map Prod.fst).Nodup)
    (n : Nat) (j : Json) (h : protocolToJson n p = some j) :
    ∃ r ms, importProtocol j [] = .ok (r, ms) ∧
      r.names.Perm (p.types.filterMap Schema.fullName?) ∧
      (∀ full t', (full, t') ∈ r →
        ∃ t ∈ p.types, t.fullName? = some full ∧ SameDef t t') ∧
      (ms.map Prod.fst).Perm (p.messages.map Prod.fst) ∧
      (∀ name m', (name, m') ∈ ms → ∃ m, (name, m) ∈ p.messages ∧ SameMessage m m') := by
  unfold protocolToJson at h
  cases h1 : mapAccum (fun s k => schemaToJson (buildLookup p.types p.ns) n s p.ns k) p.types [] with
  | none => simp only [h1] at h; cases h
  | some res =>
    obtain ⟨types, K⟩ := res
    simp only [h1] at h
    obtain ⟨t1, -, t3, t4⟩ := types_events H.table n p.types (fun _ h => h) [] types K h1
    have hK : ∀ x, x ∈ K ↔ x ∈ fullNames p.types := fun x => ⟨t4 (by simp) x, t3 x⟩
    have hnodup : K.Nodup := run_nodup List.nodup_nil t1
    cases h2 : mapAccum (fun (nm : String × Message) k =>
        (messageToJson (buildLookup p.types p.ns) n p.ns nm.2 k).map fun jk => ((nm.1, jk.1), jk.2))
        p.messages K with
    | none => simp only [h2] at h; cases h
    | some res =>
      obtain ⟨msgs, K2⟩ := res
      simp only [h2, Option.some.injEq] at h
      subst h
      obtain ⟨g1, g2, g3⟩ := get?_protocolObj H.props types msgs
      have hd : nsStr ((Json.get? (.obj (protocolObj p types msgs)) "namespace").bind Json.asStr) =
          nsStr p.ns := by
        rw [← g3]
        simp only [Json.get?, strAttr, attr_eq_get?, nsStr]
        cases hg : JMap.get? (protocolObj p types msgs) "namespace" with
        | none => rfl
        | some v => cases v <;> rfl
      generalize hdd : (Json.get? (.obj (protocolObj p types msgs)) "namespace").bind Json.asStr = d
        at hd
      have hio : ∀ t ∈ p.types, InOk t := fun t ht => (hin t ht).1
      obtain ⟨cs, c1, c2⟩ := types_import (d' := d) H.table hio hd n p.types (fun _ h => h) [] types
        K h1
      obtain ⟨r, r1, r2, r3⟩ := register_brought c2 hnodup
        (acceptable_lookup H.table fun t ht => (hin t ht).2)
      have hfn : (fun x => x ∈ fullNames p.types) = (fun x => x ∈ K) :=
        funext fun x => propext (hK x).symm
      have hmsgs := H.messages
      rw [hfn] at hmsgs
      obtain ⟨m1, m2⟩ := messages_import (n := n) H.table.lookupOk (H.table.lookupIn hio)
        (fun x hx => H.table.has_iff.mpr ((hK x).mp hx)) hd p.messages
        (fun nm hnm => ⟨hmsgs nm hnm, hmsg nm hnm⟩) msgs K2 h2
      have hperm := insertAll_nil_perm (l := msgs) (by rw [m1]; exact hdist)
      obtain ⟨ms, k1, k2, k3⟩ := importMessages_ok (d := d)
        (R := fun name m' => ∃ m, (name, m) ∈ p.messages ∧ SameMessage m m')
        (JMap.insertAll [] msgs) (by
          intro kv hkv
          obtain ⟨m, m', a1, a2, a3⟩ := m2 kv (hperm.mem_iff.1 hkv)
          exact ⟨m', a2, m, a1, a3⟩)
      refine ⟨r, ms, ?_, ?_, ?_, ?_, k3⟩
      · unfold importProtocol
        rw [hdd]
        simp only [Json.get?, g1, g2, Option.bind_some, Json.asArr, importTypes_ok c1, r1, k1]
      · refine r2.trans ?_
        have hnd2 : (fullNames p.types).Nodup := H.table.distinct
        exact (List.perm_ext_iff_of_nodup hnodup hnd2).2 hK
      · intro full t' hm
        obtain ⟨t, hl, hs⟩ := r3 full t' hm
        obtain ⟨ht, hf⟩ := H.table.lookup_iff.1 hl
        exact ⟨t, ht, hf, hs⟩
      · rw [k2, ← m1]
        exact hperm.map _

/-- **C23 for a single schema, partial.** Importing the document written for one type of a table
succeeds; it registers exactly the names the document defines (`Spec.events`), among them the
type's own, and each definition is the same as the table's.  (Conditions as in
`C23_protocol_partial`.) -/
theorem C23_schema_partial [CharTables] (types : List Schema) (H : TableOk none types)
    (hin : ∀ t ∈ types, InOk t ∧ Acceptable t) (t : Schema) (ht : t ∈ types) (n : Nat) (j : Json)
    (K : Known) (h : schemaToJson (buildLookup types none) n t none [] = some (j, K)) :
    ∃ r, importSchema j [] = .ok r ∧
      r.names.Perm (defs (events "" j)) ∧
      (∀ full, t.fullName? = some full → full ∈ r.names) ∧
      (∀ full t', (full, t') ∈ r → ∃ u ∈ types, u.fullName? = some full ∧ SameDef u t') := by
  have hnamed := Schema.isNamed_of_flatDef (H.flat t ht)
  obtain ⟨x, hx⟩ := IsNamed_fullName hnamed
  have hio : ∀ t ∈ types, InOk t := fun t ht => (hin t ht).1
  obtain ⟨s', -, -, g1, -, -, -, g5⟩ := (ser_import _ H.lookupOk (H.lookupIn hio) n).2 t none none
    [] j K x hnamed (H.lookup_iff.2 ⟨ht, hx⟩) (H.ns t ht) (by simp) rfl h
  have hrun : run (events "" j) [] = some K := by
    refine (ser_events _ H.lookupOk n).2 t none [] j K hnamed ?_ (H.ns t ht) (by simp) h
    rw [H.has_eq]; exact H.out t ht
  have hnodup : K.Nodup := run_nodup List.nodup_nil hrun
  obtain ⟨r, r1, r2, r3⟩ := register_brought g5 hnodup
    (acceptable_lookup H fun t ht => (hin t ht).2)
  refine ⟨r, ?_, ?_, ?_, ?_⟩
  · unfold importSchema
    rw [g1]
    simp only [flattenAndRegister_defs, r1]
  · refine r2.trans ?_
    rw [run_defs hrun, List.append_nil]
    exact List.reverse_perm _
  · intro full hf
    exact r2.mem_iff.2 (ser_named_known _ H.lookupNamed n hf hnamed h)
  · intro full t' hm
    obtain ⟨u, hl, hs⟩ := r3 full t' hm
    obtain ⟨hu, hf⟩ := H.lookup_iff.1 hl
    exact ⟨u, hu, hf, hs⟩

/-! ### Examples -/

attribute [local instance] asciiTables

/-- A record with a decimal, an annotated primitive, a default, a reference and aliases. -/
def rtR : Schema :=
  .record "R" (some "p") (some "doc")
    [.mk "a" (.logical (.decimal 10 2) [("x", .bool true)]) none none (some .ignore) [] [],
     .mk "b" (.annotated .string [("k", .num (.int 1))]) (some "b") (some (.str "d"))
       (some .ascending) ["bb"] [("u", .null), ("t", .null)],
     .mk "c" (.union [.prim .null, .ref "E" (some "q") [] (some ⟨1, 2, "f"⟩)] true) none none none
       [] [],
     .mk "d" (.map (.ref "R" (some "p") [] none) []) none none none [] []]
    true ["p.Old", "q.Older", "Oldest"] [("z", .num (.int 0)), ("y", .str "")]
/-- An enumeration in another namespace. -/
def rtE : Schema := .enum "E" (some "q") none ["X", "Y"] (some "X") ["F"] [("w", .null)]
/-- A message. -/
def rtM : Message :=
  { doc := some "m", props := [("b", .null), ("a", .null)],
    request := [.mk "e" (.ref "E" (some "q") [] none) none none none [] []],
    response := .ref "R" (some "p") [] none, errors := some [.ref "R" (some "p") [] none],
    oneWay := false }
/-- The protocol. -/
def rtP : Protocol :=
  { name := "P", ns := some "p", doc := none, props := [], types := [rtR, rtE],
    messages := [("get", rtM)] }

theorem rtP_ok : ProtocolOk rtP where
  table :=
    { flat := by decide
      distinct := by decide
      out := by
        intro t ht
        have hE : makeFullName "E" (some "q") ∈ fullNames [rtR, rtE] := by decide
        have hR : makeFullName "R" (some "p") ∈ fullNames [rtR, rtE] := by decide
        simp only [rtP, List.mem_cons, List.not_mem_nil, or_false] at ht
        rcases ht with rfl | rfl
        · exact ⟨by unfold OutNode; decide,
            by unfold OutField; decide, by unfold Schema.Everywhere OutNode; decide,
            by unfold OutField; decide, by unfold Schema.Everywhere OutNode; decide,
            by unfold OutField; decide, ⟨trivial, trivial, ⟨by decide, hE⟩, trivial⟩,
            by unfold OutField; decide, ⟨by unfold OutNode; decide, by decide, hR⟩, trivial⟩
        · exact (by unfold Schema.OutOk Schema.Everywhere rtE OutNode; decide)
      ns := by decide }
  messages := by
    intro nm h
    have hE : makeFullName "E" (some "q") ∈ fullNames [rtR, rtE] := by decide
    have hR : makeFullName "R" (some "p") ∈ fullNames [rtR, rtE] := by decide
    simp only [rtP, List.mem_cons, List.not_mem_nil, or_false] at h
    subst h
    refine ⟨?_, ⟨rfl, by decide, hR⟩, ?_, by decide⟩
    · intro f hf
      simp only [rtM, List.mem_cons, List.not_mem_nil, or_false] at hf
      subst hf
      exact ⟨rfl, ⟨by decide, hE⟩, by unfold OutField; decide⟩
    · intro es he s hs
      simp only [rtM, Option.some.injEq] at he
      subst he
      simp only [List.mem_cons, List.not_mem_nil, or_false] at hs
      subst hs
      exact ⟨rfl, by decide, hR⟩
  props := by decide

instance (ps : Props) : Decidable ps.Wf := inferInstanceAs (Decidable (ps.map Prod.fst).Nodup)
instance (f : Field) : Decidable (InField f) := inferInstanceAs (Decidable f.props.Wf)

theorem aliasOk_of {a : String} (h : a.toList.head? ≠ some '.') : AliasOk a := by
  rintro x - rfl
  exact h (by simp [String.toList_append, dot_toList])

theorem rtP_in : (∀ t ∈ rtP.types, InOk t ∧ Acceptable t) ∧
    (∀ nm ∈ rtP.messages, InMessage nm.2) ∧ (rtP.messages.map Prod.fst).Nodup := by
  have acc : ∀ t r', Registry.register [] t = .ok r' → Acceptable t := fun t r' h =>
    ((register_ok_iff _ _ _).1 h).1
  refine ⟨?_, ?_, by decide⟩
  · intro t ht
    simp only [rtP, List.mem_cons, List.not_mem_nil, or_false] at ht
    rcases ht with rfl | rfl
    · refine ⟨⟨⟨by decide, ?_⟩, by decide, ⟨by decide, by decide, ?_⟩, by decide,
        ⟨by decide, ?_⟩, by decide, ⟨trivial, trivial, rfl, trivial⟩, by decide,
        ⟨(by decide : Props.Wf []), rfl⟩, trivial⟩, acc _ _ rfl⟩
      · intro a ha
        simp only [List.mem_cons, List.not_mem_nil, or_false] at ha
        rcases ha with rfl | rfl | rfl <;> exact aliasOk_of (by decide)
      · intro p s h; cases h; decide
      · rintro ⟨n, hn, -⟩; cases hn
    · refine ⟨⟨by decide, ?_⟩, acc _ _ rfl⟩
      intro a ha
      simp only [List.mem_cons, List.not_mem_nil, or_false] at ha
      subst ha
      exact aliasOk_of (by decide)
  · intro nm h
    simp only [rtP, List.mem_cons, List.not_mem_nil, or_false] at h
    subst h
    refine ⟨by decide, ?_, rfl, ?_⟩
    · intro f hf
      simp only [rtM, List.mem_cons, List.not_mem_nil, or_false] at hf
      subst hf
      exact ⟨by unfold InField; decide, rfl⟩
    · intro es he s hs
      simp only [rtM, Option.some.injEq] at he
      subst he
      simp only [List.mem_cons, List.not_mem_nil, or_false] at hs
      subst hs
      rfl

/-- The theorem applies to the example, and the registry has two types. -/
example : ∃ j r ms, protocolToJson 8 rtP = some j ∧ importProtocol j [] = .ok (r, ms) ∧
    r.names = ["q.E", "p.R"] ∧ ms.map Prod.fst = ["get"] :=
  ⟨_, _, _, rfl, rfl, by decide, by decide⟩

/-- The hypotheses of `C23_schema_partial` hold for the example. -/
example : TableOk none [rtR, rtE] ∧ (∀ t ∈ [rtR, rtE], InOk t ∧ Acceptable t) ∧
    ∃ j K, schemaToJson (buildLookup [rtR, rtE] none) 8 rtE none [] = some (j, K) :=
  ⟨⟨rtP_ok.table.flat, rtP_ok.table.distinct, rtP_ok.table.out, by decide⟩, rtP_in.1, _, _, rfl⟩

/-! ### Where the property fails -/

/-- Finding: `@logicalType("date") string` is written as `{"type":"string","logicalType":"date"}`
and read back as a date, whose base type is `int`. -/
theorem C23_fails_logical_base :
    schemaToJson [] 1 (.annotated .string [("logicalType", .str "date")]) none [] =
      some (.obj [("logicalType", .str "date"), ("type", .str "string")], []) ∧
    jsonToSchema none (.obj [("logicalType", .str "date"), ("type", .str "string")]) =
      .ok (.logical .date []) ∧
    ¬ Same (.annotated .string [("logicalType", .str "date")]) (.logical .date []) := by
  refine ⟨rfl, rfl, ?_⟩
  intro h
  cases h

/-- Finding: annotations on a reference to a named type are not written, so they do not survive. -/
theorem C23_fails_reference_annotations :
    schemaToJson [] 1 (.ref "R" none [("k", .null)] none) none ["R"] = some (.str "R", ["R"]) ∧
    jsonToSchema none (.str "R") = .ok (.ref "R" none [] none) ∧
    ¬ Same (.ref "R" none [("k", .null)] none) (.ref "R" none [] none) := by
  refine ⟨rfl, rfl, ?_⟩
  intro h
  cases h with
  | ref _ hm => simpa using hm.1.length_eq

end Avdl.Props
