import Verif.Spec.Reorder
import Verif.Lemmas.Json
import Verif.Lemmas.Flat
/-!
# Lemmas: the serializer does not see the order of annotation maps
-/

namespace Avdl
open Spec

theorem Spec.SameMap.insertAll {p q : Props} (h : SameMap p q) {m : JMap} (hm : JMap.Sorted m) :
    m.insertAll p = m.insertAll q := JMap.insertAll_perm hm h.1 h.2

/-- Lookup tables that give reordered results. -/
def LookupReordered (lk lk' : Lookup) : Prop :=
  ∀ k, (lk.get? k = none ∧ lk'.get? k = none) ∨
    ∃ s s', lk.get? k = some s ∧ lk'.get? k = some s' ∧ Reordered s s'

theorem LookupReordered.cons {lk lk' : Lookup} (h : LookupReordered lk lk') {k : String}
    {s s' : Schema} (hs : Reordered s s') : LookupReordered ((k, s) :: lk) ((k, s') :: lk') := by
  intro x
  by_cases hx : k = x
  · exact .inr ⟨s, s', by simp [Lookup.get?, hx], by simp [Lookup.get?, hx], hs⟩
  · simp only [Lookup.get?, hx, if_false]; exact h x

mutual
theorem collectNamed_reordered (d : Option String) : (s : Schema) → {s' : Schema} →
    Reordered s s' → {lk lk' : Lookup} → LookupReordered lk lk' →
    LookupReordered (collectNamed d s lk) (collectNamed d s' lk')
  | .record n ns doc fs e al ps, s', h, lk, lk', hl => by
      cases h with
      | record hf hp =>
        simp only [collectNamed]
        exact collectNamedFields_reordered _ fs hf (hl.cons (.record hf hp))
  | .enum .., s', h, lk, lk', hl => by
      cases h with
      | enum hp => simp only [collectNamed]; exact hl.cons (.enum hp)
  | .fixed .., s', h, lk, lk', hl => by
      cases h with
      | fixed hp => simp only [collectNamed]; exact hl.cons (.fixed hp)
  | .array i _, s', h, lk, lk', hl => by
      cases h with
      | array hi _ => simp only [collectNamed]; exact collectNamed_reordered d i hi hl
  | .map i _, s', h, lk, lk', hl => by
      cases h with
      | map hi _ => simp only [collectNamed]; exact collectNamed_reordered d i hi hl
  | .union ts _, s', h, lk, lk', hl => by
      cases h with
      | union ht => simp only [collectNamed]; exact collectNamedList_reordered d ts ht hl
  | .prim _, s', h, lk, lk', hl => by cases h; simpa only [collectNamed] using hl
  | .annotated .., s', h, lk, lk', hl => by cases h; simpa only [collectNamed] using hl
  | .logical .., s', h, lk, lk', hl => by cases h; simpa only [collectNamed] using hl
  | .ref .., s', h, lk, lk', hl => by cases h; simpa only [collectNamed] using hl
theorem collectNamedFields_reordered (d : Option String) : (fs : List Field) →
    {fs' : List Field} → ReorderedFields fs fs' → {lk lk' : Lookup} → LookupReordered lk lk' →
    LookupReordered (collectNamedFields d fs lk) (collectNamedFields d fs' lk')
  | [], _, h, _, _, hl => by cases h; simpa only [collectNamedFields] using hl
  | .mk n s doc df o al ps :: fs, _, h, _, _, hl => by
      cases h with
      | cons hs _ hf =>
        simp only [collectNamedFields]
        exact collectNamedFields_reordered d fs hf (collectNamed_reordered d s hs hl)
theorem collectNamedList_reordered (d : Option String) : (ss : List Schema) →
    {ss' : List Schema} → ReorderedList ss ss' → {lk lk' : Lookup} → LookupReordered lk lk' →
    LookupReordered (collectNamedList d ss lk) (collectNamedList d ss' lk')
  | [], _, h, _, _, hl => by cases h; simpa only [collectNamedList] using hl
  | s :: ss, _, h, _, _, hl => by
      cases h with
      | cons hs hf =>
        simp only [collectNamedList]
        exact collectNamedList_reordered d ss hf (collectNamed_reordered d s hs hl)
end

theorem buildLookup_reordered (d : Option String) {ts ts' : List Schema}
    (h : ReorderedList ts ts') : LookupReordered (buildLookup ts d) (buildLookup ts' d) :=
  collectNamedList_reordered d ts h fun _ => .inl ⟨rfl, rfl⟩

theorem sorted_ite {c : Prop} [Decidable c] {a b : JMap} (ha : JMap.Sorted a)
    (hb : JMap.Sorted b) : JMap.Sorted (if c then a else b) := by
  split <;> assumption

theorem sorted_nil : JMap.Sorted ([] : JMap) := by simp [JMap.Sorted]

theorem fieldObj_reordered {n : String} {s s' : Schema} {d : Option String} {df : Option Json}
    {o : Option FieldOrder} {al : List String} {ps ps' : Props} (h : SameMap ps ps') (j : Json) :
    fieldObj (.mk n s d df o al ps) j = fieldObj (.mk n s' d df o al ps') j := by
  unfold fieldObj orderEntry
  simp only [Field.name, Field.doc, Field.default, Field.order, Field.aliases, Field.props]
  apply h.insertAll
  have h0 := (sorted_nil.insert "name" (.str n)).insert "type" j
  cases d <;> cases df <;> (try rcases o with _ | _ | _ | _) <;> simp only [] <;>
    refine sorted_ite ?_ ?_ <;>
    (repeat first | exact h0 | apply JMap.Sorted.insert)

theorem preamble_sorted {t n : String} {ns d encl : Option String} {K K1 : Known} {obj : JMap}
    (h : namedTypePreamble t n ns d K encl = .ok (obj, K1)) : obj.Sorted := by
  unfold namedTypePreamble at h
  simp only at h
  split at h
  · cases h
  · injection h with h
    injection h with h _
    subst h
    have h0 := (sorted_nil.insert "type" (.str t)).insert "name" (.str n)
    cases ns <;> cases d <;> simp only []
    · exact h0
    · exact h0.insert _ _
    · exact sorted_ite (h0.insert _ _) h0
    · exact (sorted_ite (h0.insert _ _) h0).insert _ _

theorem finish_reordered {obj : JMap} (hobj : obj.Sorted) {ps ps' : Props} (h : SameMap ps ps')
    (al : List String) (ns : Option String) :
    finishNamedType obj ps al ns = finishNamedType obj ps' al ns := by
  unfold finishNamedType
  rw [h.insertAll hobj]

theorem logicalObj_reordered (l : LogicalType) {ps ps' : Props} (h : SameMap ps ps') :
    logicalObj l ps = logicalObj l ps' := by
  unfold logicalObj
  apply h.insertAll
  have h0 := (sorted_nil.insert "type" (.str l.base.asStr)).insert "logicalType" (.str l.name)
  cases l <;> first | exact h0 | exact (h0.insert _ _).insert _ _

theorem mapAccum_fields_reordered {f g : Schema → Known → Option (Json × Known)}
    (H : ∀ s s', Reordered s s' → ∀ K, f s K = g s' K) {fs fs' : List Field}
    (h : ReorderedFields fs fs') : ∀ K,
    mapAccum (fieldToJson f) fs K = mapAccum (fieldToJson g) fs' K := by
  induction fs generalizing fs' with
  | nil => intro K; cases h; rfl
  | cons x fs ih =>
    intro K
    cases h with
    | @cons n s s' d df o al ps ps' _ fs' hs hp hf =>
      have : fieldToJson f (.mk n s d df o al ps) K = fieldToJson g (.mk n s' d df o al ps') K := by
        simp only [fieldToJson, Field.schema, H s s' hs K]
        cases g s' K with
        | none => rfl
        | some r => simp only [fieldObj_reordered (s := s) (s' := s') hp]
      simp only [mapAccum, this]
      cases fieldToJson g (.mk n s' d df o al ps') K with
      | none => rfl
      | some r => simp only [ih hf]

theorem mapAccum_list_reordered {f g : Schema → Known → Option (Json × Known)}
    (H : ∀ s s', Reordered s s' → ∀ K, f s K = g s' K) {ss ss' : List Schema}
    (h : ReorderedList ss ss') : ∀ K, mapAccum f ss K = mapAccum g ss' K := by
  induction ss generalizing ss' with
  | nil => intro K; cases h; rfl
  | cons x fs ih =>
    intro K
    cases h with
    | @cons s s' _ ss' hs hf =>
      simp only [mapAccum, H x s' hs]
      cases g s' K with
      | none => rfl
      | some r => simp only [ih hf]

theorem ser_reordered {lk lk' : Lookup} (hl : LookupReordered lk lk') (n : Nat) :
    ∀ s s', Reordered s s' → ∀ encl K,
      schemaToJson lk n s encl K = schemaToJson lk' n s' encl K := by
  induction n with
  | zero => intros; rfl
  | succ n ih =>
    intro s s' h encl K
    cases h with
    | prim => rfl
    | @record nm ns d fs fs' e al ps ps' hf hp =>
      simp only [schemaToJson]
      cases hpre : namedTypePreamble (if e then "error" else "record") nm ns d K encl with
      | error j => rfl
      | ok r =>
        obtain ⟨obj, K1⟩ := r
        simp only
        rw [mapAccum_fields_reordered (fun s s' hs K => ih s s' hs (ns.or encl) K) hf]
        cases mapAccum (fieldToJson fun s k => schemaToJson lk' n s (ns.or encl) k) fs' K1 with
        | none => rfl
        | some r => simp only [finish_reordered ((preamble_sorted hpre).insert _ _) hp]
    | @enum nm ns d sy df al ps ps' hp =>
      simp only [schemaToJson]
      cases hpre : namedTypePreamble "enum" nm ns d K encl with
      | error j => rfl
      | ok r =>
        obtain ⟨obj, K1⟩ := r
        have : (enumObj sy df obj).Sorted := by
          unfold enumObj
          cases df
          · exact (preamble_sorted hpre).insert _ _
          · exact ((preamble_sorted hpre).insert _ _).insert _ _
        simp only [finish_reordered this hp]
    | @fixed nm ns d sz al ps ps' hp =>
      simp only [schemaToJson]
      cases hpre : namedTypePreamble "fixed" nm ns d K encl with
      | error j => rfl
      | ok r =>
        obtain ⟨obj, K1⟩ := r
        simp only [finish_reordered ((preamble_sorted hpre).insert _ _) hp]
    | array hi hp =>
      simp only [schemaToJson, ih _ _ hi]
      split
      · rfl
      · rw [hp.insertAll ((sorted_nil.insert _ _).insert _ _)]
    | map hi hp =>
      simp only [schemaToJson, ih _ _ hi]
      split
      · rfl
      · rw [hp.insertAll ((sorted_nil.insert _ _).insert _ _)]
    | union ht =>
      simp only [schemaToJson]
      rw [mapAccum_list_reordered (fun s s' hs K => ih s s' hs encl K) ht]
    | annotated hp =>
      simp only [schemaToJson]
      rw [hp.insertAll (sorted_nil.insert _ _)]
    | logical hp => simp only [schemaToJson, logicalObj_reordered _ hp]
    | @ref nm ns ps ps' sp hp =>
      simp only [schemaToJson]
      rcases hl (makeFullName nm ns) with ⟨h1, h2⟩ | ⟨s, s', h1, h2, hs⟩
      · simp [h1, h2]
      · simp only [h1, h2, ih s s' hs]

theorem messageObj_reordered {m m' : Message} (h : ReorderedMessage m m') (req : List Json)
    (resp : Json) (es : Option (List Json)) :
    messageObj m req resp es = messageObj m' req resp es := by
  unfold messageObj
  simp only [h.doc, h.oneWay]
  rw [h.props.insertAll (by cases m'.doc <;> first | exact sorted_nil | exact sorted_nil.insert _ _)]

theorem message_reordered {lk lk' : Lookup} (hl : LookupReordered lk lk') (n : Nat)
    (encl : Option String) {m m' : Message} (h : ReorderedMessage m m') (K : Known) :
    messageToJson lk n encl m K = messageToJson lk' n encl m' K := by
  unfold messageToJson
  have e1 := mapAccum_fields_reordered (f := fun s k => schemaToJson lk n s encl k)
    (g := fun s k => schemaToJson lk' n s encl k)
    (fun s s' hs K => ser_reordered hl n s s' hs encl K) h.request K
  rw [e1]
  cases mapAccum (fieldToJson fun s k => schemaToJson lk' n s encl k) m'.request K with
  | none => rfl
  | some r =>
    obtain ⟨req, K1⟩ := r
    simp only [ser_reordered hl n _ _ h.response]
    cases schemaToJson lk' n m'.response encl K1 with
    | none => rfl
    | some r =>
      obtain ⟨resp, K2⟩ := r
      simp only
      rcases h.errors with ⟨h1, h2⟩ | ⟨es, es', h1, h2, he⟩
      · simp only [h1, h2, messageObj_reordered h]
      · simp only [h1, h2]
        have e2 := mapAccum_list_reordered (f := fun s k => schemaToJson lk n s encl k)
          (g := fun s k => schemaToJson lk' n s encl k)
          (fun s s' hs K => ser_reordered hl n s s' hs encl K) he K2
        rw [e2]
        simp only [messageObj_reordered h]

/-! ### Message order -/

/-- Every type in the lookup table has been emitted. -/
def AllKnown (lk : Lookup) (K : Known) : Prop :=
  ∀ k t, lk.get? k = some t → ∃ full, t.IsNamed ∧ t.fullName? = some full ∧ full ∈ K

theorem mapAccum_stable {α : Type} {f : α → Known → Option (Json × Known)} {l : List α} {K : Known}
    (H : ∀ a ∈ l, ∀ j K', f a K = some (j, K') → K' = K) {js : List Json} {K' : Known}
    (h : mapAccum f l K = some (js, K')) : K' = K := by
  induction l generalizing js K' with
  | nil => simp [mapAccum] at h; exact h.2.symm
  | cons a l ih =>
    simp only [mapAccum] at h
    cases ha : f a K with
    | none => simp [ha] at h
    | some r =>
      obtain ⟨j, K1⟩ := r
      have := H a (by simp) j K1 ha
      subst this
      simp only [ha] at h
      cases hl : mapAccum f l K1 with
      | none => simp [hl] at h
      | some r =>
        obtain ⟨js', K2⟩ := r
        simp only [hl, Option.some.injEq, Prod.mk.injEq] at h
        rw [← h.2]
        exact ih (fun a ha => H a (by simp [ha])) hl

/-- Once everything is known, serializing a type without definitions changes nothing. -/
theorem ser_stable {lk : Lookup} {K : Known} (hk : AllKnown lk K) (n : Nat) :
    ∀ s, s.noDefs = true → ∀ encl j K', schemaToJson lk n s encl K = some (j, K') → K' = K := by
  induction n with
  | zero => intro s _ encl j K' h; simp [schemaToJson] at h
  | succ n ih =>
    intro s hs encl j K' h
    cases s with
    | record | enum | fixed => simp [Schema.noDefs] at hs
    | prim | annotated | logical =>
      simp only [schemaToJson, Option.some.injEq, Prod.mk.injEq] at h
      exact h.2.symm
    | array i ps | map i ps =>
      simp only [Schema.noDefs] at hs
      simp only [schemaToJson] at h
      cases hi : schemaToJson lk n i encl K with
      | none => simp [hi] at h
      | some r =>
        obtain ⟨ji, Ki⟩ := r
        simp only [hi, Option.some.injEq, Prod.mk.injEq] at h
        rw [← h.2]
        exact ih i hs encl ji Ki hi
    | union ts b =>
      simp only [Schema.noDefs, Schema.noDefsL_iff] at hs
      simp only [schemaToJson] at h
      cases hi : mapAccum (fun s k => schemaToJson lk n s encl k) ts K with
      | none => simp [hi] at h
      | some r =>
        obtain ⟨ji, Ki⟩ := r
        simp only [hi, Option.some.injEq, Prod.mk.injEq] at h
        rw [← h.2]
        exact mapAccum_stable (fun a ha j K' hj => ih a (hs a ha) encl j K' hj) hi
    | ref nm ns ps sp =>
      simp only [schemaToJson] at h
      split at h
      · simp only [Option.some.injEq, Prod.mk.injEq] at h; exact h.2.symm
      · cases hg : lk.get? (makeFullName nm ns) with
        | none =>
          simp only [hg, Option.some.injEq, Prod.mk.injEq] at h; exact h.2.symm
        | some t =>
          simp only [hg] at h
          obtain ⟨full, hn, hf, hm⟩ := hk _ _ hg
          cases n with
          | zero => simp [schemaToJson] at h
          | succ n =>
            cases t with
            | record tn tns td tfs te tal tps =>
              simp only [Schema.fullName?, Option.some.injEq] at hf
              subst hf
              rcases preamble_cases (if te then "error" else "record") tn tns td encl K with
                ⟨_, h2⟩ | ⟨h1, _⟩
              · simp only [schemaToJson, h2, Option.some.injEq, Prod.mk.injEq] at h
                exact h.2.symm
              · exact absurd hm h1
            | enum tn tns td =>
              simp only [Schema.fullName?, Option.some.injEq] at hf
              subst hf
              rcases preamble_cases "enum" tn tns td encl K with ⟨_, h2⟩ | ⟨h1, _⟩
              · simp only [schemaToJson, h2, Option.some.injEq, Prod.mk.injEq] at h
                exact h.2.symm
              · exact absurd hm h1
            | fixed tn tns td =>
              simp only [Schema.fullName?, Option.some.injEq] at hf
              subst hf
              rcases preamble_cases "fixed" tn tns td encl K with ⟨_, h2⟩ | ⟨h1, _⟩
              · simp only [schemaToJson, h2, Option.some.injEq, Prod.mk.injEq] at h
                exact h.2.symm
              · exact absurd hm h1
            | _ => cases hn

/-- A message whose types contain no definitions. -/
def Message.noDefs (m : Message) : Prop :=
  (∀ f ∈ m.request, f.schema.noDefs = true) ∧ m.response.noDefs = true ∧
  ∀ es, m.errors = some es → ∀ s ∈ es, s.noDefs = true

theorem message_stable {lk : Lookup} {K : Known} (hk : AllKnown lk K) {n : Nat}
    {encl : Option String} {m : Message} (hm : m.noDefs) {j : Json} {K' : Known}
    (h : messageToJson lk n encl m K = some (j, K')) : K' = K := by
  obtain ⟨hreq, hresp, herr⟩ := hm
  unfold messageToJson at h
  cases h1 : mapAccum (fieldToJson fun s k => schemaToJson lk n s encl k) m.request K with
  | none => simp [h1] at h
  | some r =>
    obtain ⟨js, K1⟩ := r
    have e1 : K1 = K := by
      refine mapAccum_stable (fun f hf j K' hj => ?_) h1
      simp only [fieldToJson] at hj
      cases hs : schemaToJson lk n f.schema encl K with
      | none => simp [hs] at hj
      | some r =>
        obtain ⟨j2, K2⟩ := r
        simp only [hs, Option.some.injEq, Prod.mk.injEq] at hj
        rw [← hj.2]
        exact ser_stable hk n _ (hreq f hf) encl j2 K2 hs
    subst e1
    simp only [h1] at h
    cases h2 : schemaToJson lk n m.response encl K1 with
    | none => simp [h2] at h
    | some r =>
      obtain ⟨j2, K2⟩ := r
      have e2 := ser_stable hk n _ hresp encl j2 K2 h2
      subst e2
      simp only [h2] at h
      cases he : m.errors with
      | none =>
        simp only [he, Option.some.injEq, Prod.mk.injEq] at h
        exact h.2.symm
      | some es =>
        simp only [he] at h
        cases h3 : mapAccum (fun s k => schemaToJson lk n s encl k) es K2 with
        | none => simp [h3] at h
        | some r =>
          obtain ⟨js3, K3⟩ := r
          simp only [h3, Option.some.injEq, Prod.mk.injEq] at h
          rw [← h.2]
          exact mapAccum_stable (fun s hs j K' hj => ser_stable hk n s (herr es he s hs) encl j K' hj) h3

/-- Every run only adds known names. -/
theorem ser_known_mono {lk : Lookup} (hlk : LookupNamed lk) {n : Nat} {s : Schema}
    {encl : Option String} {K K' : Known} {j : Json}
    (h : schemaToJson lk n s encl K = some (j, K')) : ∀ x ∈ K, x ∈ K' := by
  obtain ⟨j2, K2, h2, hs⟩ := ser_total lk hlk (max n (serBound lk s K)) s encl K (Nat.le_max_right _ _)
  have h3 := ser_mono lk (Nat.le_max_left n (serBound lk s K)) h
  rw [h2] at h3
  injection h3 with h3
  injection h3 with _ h3
  rwa [← h3]

theorem mapAccum_known_mono {α β : Type} {f : α → Known → Option (β × Known)} {l : List α}
    (H : ∀ a ∈ l, ∀ K j K', f a K = some (j, K') → ∀ x ∈ K, x ∈ K') {K K' : Known} {js : List β}
    (h : mapAccum f l K = some (js, K')) : ∀ x ∈ K, x ∈ K' := by
  induction l generalizing K K' js with
  | nil => simp [mapAccum] at h; intro x hx; rw [← h.2]; exact hx
  | cons a l ih =>
    simp only [mapAccum] at h
    cases ha : f a K with
    | none => simp [ha] at h
    | some r =>
      obtain ⟨j, K1⟩ := r
      simp only [ha] at h
      cases hl : mapAccum f l K1 with
      | none => simp [hl] at h
      | some r =>
        obtain ⟨js', K2⟩ := r
        simp only [hl, Option.some.injEq, Prod.mk.injEq] at h
        rw [← h.2]
        intro x hx
        exact ih (fun a ha => H a (by simp [ha])) hl x (H a (by simp) K j K1 ha x hx)

/-- A serialized definition is known afterwards. -/
theorem ser_def_known {lk : Lookup} (hlk : LookupNamed lk) {n : Nat} {s : Schema}
    (hs : s.IsNamed) {encl : Option String} {K K' : Known} {j : Json}
    (h : schemaToJson lk n s encl K = some (j, K')) {full : String}
    (hf : s.fullName? = some full) : full ∈ K' := by
  cases n with
  | zero => simp [schemaToJson] at h
  | succ n =>
    cases s with
    | record tn tns td tfs te tal tps =>
      simp only [Schema.fullName?, Option.some.injEq] at hf
      subst hf
      rcases preamble_cases (if te then "error" else "record") tn tns td encl K with
        ⟨h1, h2⟩ | ⟨h1, obj, h2⟩
      · simp only [schemaToJson, h2, Option.some.injEq, Prod.mk.injEq] at h
        rw [← h.2]; exact h1
      · simp only [schemaToJson, h2] at h
        cases hm : mapAccum (fieldToJson fun s k => schemaToJson lk n s (tns.or encl) k) tfs
            (makeFullName tn tns :: K) with
        | none => simp [hm] at h
        | some r =>
          obtain ⟨js, K2⟩ := r
          simp only [hm, Option.some.injEq, Prod.mk.injEq] at h
          rw [← h.2]
          refine mapAccum_known_mono (fun f _ K j K' hj => ?_) hm _ (by simp)
          simp only [fieldToJson] at hj
          cases hs : schemaToJson lk n f.schema (tns.or encl) K with
          | none => simp [hs] at hj
          | some r =>
            obtain ⟨j2, K2⟩ := r
            simp only [hs, Option.some.injEq, Prod.mk.injEq] at hj
            rw [← hj.2]
            exact ser_known_mono hlk hs
    | enum tn tns td =>
      simp only [Schema.fullName?, Option.some.injEq] at hf
      subst hf
      rcases preamble_cases "enum" tn tns td encl K with ⟨h1, h2⟩ | ⟨h1, obj, h2⟩ <;>
        simp only [schemaToJson, h2, Option.some.injEq, Prod.mk.injEq] at h <;> rw [← h.2]
      · exact h1
      · simp
    | fixed tn tns td =>
      simp only [Schema.fullName?, Option.some.injEq] at hf
      subst hf
      rcases preamble_cases "fixed" tn tns td encl K with ⟨h1, h2⟩ | ⟨h1, obj, h2⟩ <;>
        simp only [schemaToJson, h2, Option.some.injEq, Prod.mk.injEq] at h <;> rw [← h.2]
      · exact h1
      · simp
    | _ => cases hs

theorem mapAccum_types_known {lk : Lookup} (hlk : LookupNamed lk) {n : Nat} {encl : Option String}
    {ts : List Schema} {K K' : Known} {js : List Json}
    (h : mapAccum (fun s k => schemaToJson lk n s encl k) ts K = some (js, K')) :
    ∀ t ∈ ts, t.IsNamed → ∀ full, t.fullName? = some full → full ∈ K' := by
  induction ts generalizing K K' js with
  | nil => intro t ht; cases ht
  | cons a l ih =>
    simp only [mapAccum] at h
    cases ha : schemaToJson lk n a encl K with
    | none => simp [ha] at h
    | some r =>
      obtain ⟨j, K1⟩ := r
      simp only [ha] at h
      cases hl : mapAccum (fun s k => schemaToJson lk n s encl k) l K1 with
      | none => simp [hl] at h
      | some r =>
        obtain ⟨js', K2⟩ := r
        simp only [hl, Option.some.injEq, Prod.mk.injEq] at h
        rw [← h.2]
        intro t ht hn full hf
        rcases List.mem_cons.1 ht with rfl | ht
        · exact mapAccum_known_mono (fun s _ K j K' hj => ser_known_mono hlk hj) hl _
            (ser_def_known hlk hn ha hf)
        · exact ih hl t ht hn full hf

/-- A loop that does not change the state, in any order. -/
theorem mapAccum_perm {α β : Type} {f : α → Known → Option (β × Known)} {K : Known}
    {l l' : List α} (hp : l.Perm l') (H : ∀ a ∈ l, ∀ b K', f a K = some (b, K') → K' = K) :
    (mapAccum f l K = none ∧ mapAccum f l' K = none) ∨
    ∃ bs bs', mapAccum f l K = some (bs, K) ∧ mapAccum f l' K = some (bs', K) ∧ bs.Perm bs' := by
  have hpure : ∀ l : List α, (∀ a ∈ l, ∀ b K', f a K = some (b, K') → K' = K) →
      mapAccum f l K = ((l.mapM fun a => (f a K).map Prod.fst).map fun bs => (bs, K)) := by
    intro l
    induction l with
    | nil => intro _; rfl
    | cons a l ih =>
      intro H
      simp only [mapAccum, List.mapM_cons]
      cases ha : f a K with
      | none => rfl
      | some r =>
        obtain ⟨b, K1⟩ := r
        have := H a (by simp) b K1 ha
        subst this
        simp only [ih fun a ha => H a (by simp [ha]), Option.map_some]
        cases l.mapM fun a => (f a K1).map Prod.fst <;> rfl
  rw [hpure l H, hpure l' fun a ha => H a (hp.mem_iff.2 ha)]
  clear hpure
  generalize (fun a => (f a K).map Prod.fst) = g
  have : (l.mapM g = none ∧ l'.mapM g = none) ∨
      ∃ bs bs', l.mapM g = some bs ∧ l'.mapM g = some bs' ∧ bs.Perm bs' := by
    clear H
    induction hp with
    | nil => exact .inr ⟨[], [], rfl, rfl, .nil⟩
    | cons x _ ih =>
      simp only [List.mapM_cons]
      cases g x with
      | none => exact .inl ⟨rfl, rfl⟩
      | some b =>
        rcases ih with ⟨h1, h2⟩ | ⟨bs, bs', h1, h2, h3⟩
        · exact .inl ⟨by simp [h1], by simp [h2]⟩
        · exact .inr ⟨b :: bs, b :: bs', by simp [h1], by simp [h2], h3.cons b⟩
    | swap x y l =>
      simp only [List.mapM_cons]
      cases g x <;> cases g y <;> cases l.mapM g <;> simp
      exact .swap ..
    | trans _ _ ih1 ih2 =>
      rcases ih1 with ⟨h1, h2⟩ | ⟨bs, bs', h1, h2, h3⟩ <;>
        rcases ih2 with ⟨h4, h5⟩ | ⟨cs, cs', h4, h5, h6⟩
      · exact .inl ⟨h1, h5⟩
      · rw [h2] at h4; cases h4
      · rw [h2] at h4; cases h4
      · rw [h2] at h4; cases h4; exact .inr ⟨bs, cs', h1, h5, h3.trans h6⟩
  rcases this with ⟨h1, h2⟩ | ⟨bs, bs', h1, h2, h3⟩
  · exact .inl ⟨by simp [h1], by simp [h2]⟩
  · exact .inr ⟨bs, bs', by simp [h1], by simp [h2], h3⟩

end Avdl
