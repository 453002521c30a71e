import Verif.Lemmas.Reorder
import Verif.Props.Output
/-!
# C26: the output does not depend on hash-map order

Annotations and messages live in hash maps, whose iteration order varies from run to run.
-/

namespace Avdl.Props
open Spec

/-- **C26, types.** A type is written as the same JSON whatever the iteration order of the
annotation maps in it and in the types it refers to. -/
theorem C26_schema (types types' : List Schema) (ht : ReorderedList types types')
    (s s' : Schema) (hs : Reordered s s') (dflt encl : Option String) (n : Nat) (known : Known) :
    schemaToJson (buildLookup types dflt) n s encl known =
      schemaToJson (buildLookup types' dflt) n s' encl known :=
  ser_reordered (buildLookup_reordered dflt ht) n s s' hs encl known

/-- **C26, extracted schemas.** -/
theorem C26_extracted (types types' : List Schema) (ht : ReorderedList types types') (n : Nat) :
    extractSchemas n types = extractSchemas n types' := by
  have key : ∀ ts ts', ReorderedList ts ts' →
      extractSchemas.go n (buildLookup types none) ts =
        extractSchemas.go n (buildLookup types' none) ts' := by
    intro ts
    induction ts with
    | nil => intro ts' h; cases h; rfl
    | cons t ts ih =>
      intro ts' h
      cases h with
      | @cons _ t' _ ts' hs hss =>
        have hn : t.name? = t'.name? := by cases hs <;> rfl
        simp only [extractSchemas.go, hn, C26_schema types types' ht t t' hs, ih _ hss]
  exact key _ _ ht

theorem protocolObj_reordered {p p' : Protocol} (h : ReorderedProtocol p p') (types : List Json)
    {msgs msgs' : List (String × Json)} (hm : SameMap msgs msgs') :
    protocolObj p types msgs = protocolObj p' types msgs' := by
  unfold protocolObj
  simp only [h.name, h.ns, h.doc, hm.insertAll sorted_nil]
  have h0 := sorted_nil.insert "protocol" (.str p'.name)
  rw [h.props.insertAll]
  cases p'.ns <;> cases p'.doc <;> simp only []
  · exact h0
  · exact h0.insert _ _
  · exact sorted_ite h0 (h0.insert _ _)
  · exact (sorted_ite h0 (h0.insert _ _)).insert _ _

theorem matching_names {ms ms' : List (String × Message)}
    (h : Matching (fun a b => a.1 = b.1 ∧ ReorderedMessage a.2 b.2) ms ms') :
    ms.map Prod.fst = ms'.map Prod.fst := by
  induction h with
  | nil => rfl
  | cons h _ ih => simp [h.1, ih]

theorem mapAccum_names {f : Message → Known → Option (Json × Known)}
    {ms : List (String × Message)} : ∀ {K K' : Known} {js : List (String × Json)},
    mapAccum (fun (nm : String × Message) k => (f nm.2 k).map fun jk => ((nm.1, jk.1), jk.2)) ms K =
      some (js, K') → js.map Prod.fst = ms.map Prod.fst := by
  induction ms with
  | nil => intro K K' js h; simp [mapAccum] at h; simp [← h.1]
  | cons m ms ih =>
    intro K K' js h
    simp only [mapAccum] at h
    cases hm : f m.2 K with
    | none => simp [hm] at h
    | some r =>
      obtain ⟨j, K1⟩ := r
      simp only [hm, Option.map_some] at h
      cases hl : mapAccum (fun (nm : String × Message) k =>
          (f nm.2 k).map fun jk => ((nm.1, jk.1), jk.2)) ms K1 with
      | none => simp [hl] at h
      | some r =>
        obtain ⟨js', K2⟩ := r
        simp only [hl, Option.some.injEq, Prod.mk.injEq] at h
        rw [← h.1]
        simp [ih hl]

theorem mapAccum_messages_reordered {lk lk' : Lookup} (hl : LookupReordered lk lk') (n : Nat)
    (encl : Option String) {ms ms' : List (String × Message)}
    (h : Matching (fun a b => a.1 = b.1 ∧ ReorderedMessage a.2 b.2) ms ms') : ∀ K,
    mapAccum (fun (nm : String × Message) k =>
        (messageToJson lk n encl nm.2 k).map fun jk => ((nm.1, jk.1), jk.2)) ms K =
      mapAccum (fun (nm : String × Message) k =>
        (messageToJson lk' n encl nm.2 k).map fun jk => ((nm.1, jk.1), jk.2)) ms' K := by
  induction h with
  | nil => intro K; rfl
  | @cons a b as bs hab _ ih =>
    intro K
    simp only [mapAccum, message_reordered hl n encl hab.2, hab.1]
    cases messageToJson lk' n encl b.2 K with
    | none => rfl
    | some r => simp only [Option.map_some, ih]

/-- **C26 (partial), protocols.** A protocol whose registered types are single definitions and
whose messages contain no type definitions is written as the same JSON whatever the iteration
orders of its message map and of all annotation maps.

Full property: without the condition on messages.  Messages from an imported `.avpr` file may
contain definitions, and then it does not hold: `C26_fails_inline_definitions`. -/
theorem C26_protocol_partial (p p' : Protocol) (h : ReorderedProtocol p p')
    (hflat : ∀ t ∈ p.types, t.flatDef = true) (hmsg : ∀ m ∈ p.messages, m.2.noDefs) (n : Nat) :
    protocolToJson n p = protocolToJson n p' := by
  obtain ⟨ms, hperm, hmatch⟩ := h.messages
  have hl := buildLookup_reordered p.ns h.types
  have hlk : LookupNamed (buildLookup p.types p.ns) := buildLookup_named p.types p.ns
  unfold protocolToJson
  simp only [← h.ns]
  have e1 := mapAccum_list_reordered
    (f := fun s k => schemaToJson (buildLookup p.types p.ns) n s p.ns k)
    (g := fun s k => schemaToJson (buildLookup p'.types p.ns) n s p.ns k)
    (fun s s' hs K => ser_reordered hl n s s' hs p.ns K) h.types []
  rw [← e1]
  cases htys : mapAccum (fun s k => schemaToJson (buildLookup p.types p.ns) n s p.ns k) p.types []
    with
  | none => rfl
  | some r =>
    obtain ⟨types, K⟩ := r
    simp only
    have hall : AllKnown (buildLookup p.types p.ns) K := by
      intro k t hk
      have hm := Lookup.mem_of_get? hk
      rw [buildLookup_flat p.ns p.types hflat] at hm
      obtain ⟨t', ht', he⟩ := List.mem_map.1 (List.mem_reverse.1 hm)
      injection he with _ he
      subst he
      have hn := Schema.isNamed_of_flatDef (hflat t' ht')
      have : ∃ full, t'.fullName? = some full := by
        cases t' <;> first | exact ⟨_, rfl⟩ | cases hn
      obtain ⟨full, hf⟩ := this
      exact ⟨full, hn, hf, mapAccum_types_known hlk htys t' ht' hn full hf⟩
    rw [← mapAccum_messages_reordered hl n p.ns hmatch]
    rcases mapAccum_perm (f := fun (nm : String × Message) k =>
        (messageToJson (buildLookup p.types p.ns) n p.ns nm.2 k).map fun jk => ((nm.1, jk.1), jk.2))
        (K := K) hperm.1 (by
          intro a ha b K' hb
          cases hm : messageToJson (buildLookup p.types p.ns) n p.ns a.2 K with
          | none => simp [hm] at hb
          | some r =>
            obtain ⟨j, K1⟩ := r
            simp only [hm, Option.map_some, Option.some.injEq, Prod.mk.injEq] at hb
            rw [← hb.2]
            exact message_stable hall (hmsg a ha) hm) with ⟨h1, h2⟩ | ⟨bs, bs', h1, h2, h3⟩
    · rw [h1, h2]
    · rw [h1, h2]
      have hnames := mapAccum_names h1
      simp only [protocolObj_reordered h types ⟨h3, by rw [hnames]; exact hperm.2⟩]

/-! ### Examples -/

def exOrderMsg (doc : String) : Message :=
  { doc := some doc, props := [("x", .null), ("y", .bool true)],
    request := [.mk "r" (.ref "R" none [] none) none none none [] []], response := .prim .null,
    errors := none, oneWay := false }

def exOrderTypes : List Schema :=
  [.record "R" none none [.mk "f" (.ref "R" none [] none) none none none [] []] false []
    [("a", .null), ("b", .null)]]

def exOrderP (ms : List (String × Message)) (ts : List Schema) : Protocol :=
  { name := "P", ns := none, doc := none, props := [], types := ts, messages := ms }

/-- Two messages in both orders, and annotations of a record in another order. -/
example : ∃ p p', ReorderedProtocol p p' ∧ p ≠ p' ∧ (∀ t ∈ p.types, t.flatDef = true) ∧
    (∀ m ∈ p.messages, m.2.noDefs) ∧ (protocolToJson 9 p).isSome = true := by
  refine ⟨exOrderP [("m", exOrderMsg "1"), ("n", exOrderMsg "2")] exOrderTypes,
    exOrderP [("n", exOrderMsg "2"), ("m", exOrderMsg "1")] exOrderTypes, ?_, ?_, ?_, ?_, ?_⟩
  · have hnil : SameMap ([] : Props) [] := ⟨.nil, by simp⟩
    have hr : Reordered (.ref "R" none [] none) (.ref "R" none [] none) := .ref hnil
    have hm : ∀ d, ReorderedMessage (exOrderMsg d) (exOrderMsg d) := fun d =>
      ⟨rfl, ⟨.refl _, (by decide : (["x", "y"] : List String).Nodup)⟩, .cons hr hnil .nil, .prim,
        .inl ⟨rfl, rfl⟩, rfl⟩
    exact ⟨rfl, rfl, rfl, hnil,
      .cons (.record (.cons hr hnil .nil)
        ⟨.refl _, (by decide : (["a", "b"] : List String).Nodup)⟩) .nil,
      [("n", exOrderMsg "2"), ("m", exOrderMsg "1")],
      ⟨.swap .., (by decide : (["m", "n"] : List String).Nodup)⟩,
      .cons ⟨rfl, hm _⟩ (.cons ⟨rfl, hm _⟩ .nil)⟩
  · intro h
    simp [exOrderP] at h
  · decide
  · intro m hm
    simp only [exOrderP, List.mem_cons, List.not_mem_nil, or_false] at hm
    rcases hm with rfl | rfl <;>
      exact ⟨by intro f hf; simp [exOrderMsg] at hf; subst hf; rfl, rfl, by simp [exOrderMsg]⟩
  · decide

/-- A message (as imported from an `.avpr` file) that defines a record in its request. -/
def exInlineMsg : Message :=
  { doc := none, props := [],
    request := [.mk "r" (.record "R" none none [] false [] []) none none none [] []],
    response := .prim .null, errors := none, oneWay := false }

/-- **C26 fails, definitions in messages.** Two messages that both define the same record: the
definition is written in whichever message the hash map yields first. -/
theorem C26_fails_inline_definitions :
    ReorderedProtocol (exOrderP [("m", exInlineMsg), ("n", exInlineMsg)] [])
      (exOrderP [("n", exInlineMsg), ("m", exInlineMsg)] []) ∧
    protocolToJson 9 (exOrderP [("m", exInlineMsg), ("n", exInlineMsg)] []) ≠
      protocolToJson 9 (exOrderP [("n", exInlineMsg), ("m", exInlineMsg)] []) := by
  have hnil : SameMap ([] : Props) [] := ⟨.nil, by simp⟩
  have hm : ReorderedMessage exInlineMsg exInlineMsg :=
    ⟨rfl, hnil, .cons (.record .nil hnil) hnil .nil, .prim, .inl ⟨rfl, rfl⟩, rfl⟩
  refine ⟨⟨rfl, rfl, rfl, hnil, .nil, [("n", exInlineMsg), ("m", exInlineMsg)],
    ⟨.swap .., (by decide : (["m", "n"] : List String).Nodup)⟩,
    .cons ⟨rfl, hm⟩ (.cons ⟨rfl, hm⟩ .nil)⟩, by decide⟩

end Avdl.Props
