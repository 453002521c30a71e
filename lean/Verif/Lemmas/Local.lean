import Verif.Lemmas.BareOutput
import Verif.Lemmas.EndToEnd
import Verif.Lemmas.Closed
/-!
# Lemmas: what a document depends on
-/

namespace Avdl
open Spec BareOutput BareReader

/-! ### References without positions -/

mutual
theorem refersTo_bare : (s : Schema) → ∀ {x sp}, RefersTo s.bare x sp → ∃ sp', RefersTo s x sp'
  | .record n ns d fs e al ps, x, sp, h => by
      rw [Schema.bare] at h
      cases h with
      | field hf hr =>
        obtain ⟨f, hf, sp', hr⟩ := refersToFields_bare fs hf hr
        exact ⟨sp', .field hf hr⟩
  | .array i ps, x, sp, h => by
      rw [Schema.bare] at h
      cases h with
      | items hr => obtain ⟨sp', hr⟩ := refersTo_bare i hr; exact ⟨sp', .items hr⟩
  | .map i ps, x, sp, h => by
      rw [Schema.bare] at h
      cases h with
      | values hr => obtain ⟨sp', hr⟩ := refersTo_bare i hr; exact ⟨sp', .values hr⟩
  | .union ts b, x, sp, h => by
      rw [Schema.bare] at h
      cases h with
      | branch ht hr =>
        obtain ⟨t, ht, sp', hr⟩ := refersToList_bare ts ht hr
        exact ⟨sp', .branch ht hr⟩
  | .ref n ns ps sp', x, sp, h => by
      rw [Schema.bare] at h
      cases h with
      | ref => exact ⟨_, .ref⟩
  | .enum .., x, sp, h | .fixed .., x, sp, h | .prim _, x, sp, h | .annotated .., x, sp, h
  | .logical .., x, sp, h => by rw [Schema.bare] at h; cases h
theorem refersToFields_bare : (fs : List Field) → ∀ {f x sp}, f ∈ bareFields fs →
    RefersTo f.schema x sp → ∃ g ∈ fs, ∃ sp', RefersTo g.schema x sp'
  | [], _, _, _, hf, _ => by cases hf
  | .mk n s d df o al ps :: fs, f, x, sp, hf, hr => by
      rw [bareFields] at hf
      rcases List.mem_cons.mp hf with rfl | hf
      · obtain ⟨sp', hr⟩ := refersTo_bare s hr
        exact ⟨_, List.mem_cons_self .., sp', hr⟩
      · obtain ⟨g, hg, h⟩ := refersToFields_bare fs hf hr
        exact ⟨g, List.mem_cons_of_mem _ hg, h⟩
theorem refersToList_bare : (ts : List Schema) → ∀ {t x sp}, t ∈ bareSchemas ts →
    RefersTo t x sp → ∃ u ∈ ts, ∃ sp', RefersTo u x sp'
  | [], _, _, _, ht, _ => by cases ht
  | s :: ts, t, x, sp, ht, hr => by
      rw [bareSchemas] at ht
      rcases List.mem_cons.mp ht with rfl | ht
      · obtain ⟨sp', hr⟩ := refersTo_bare s hr
        exact ⟨_, List.mem_cons_self .., sp', hr⟩
      · obtain ⟨g, hg, h⟩ := refersToList_bare ts ht hr
        exact ⟨g, List.mem_cons_of_mem _ hg, h⟩
end

theorem mentions_bare {res : String → Option Schema} {s : Schema} {x : String}
    (h : Mentions (fun y => (res y).map Schema.bare) s.bare x) : Mentions res s x := by
  generalize hs : s.bare = s' at h
  induction h generalizing s with
  | here hr =>
    subst hs
    obtain ⟨sp', hr⟩ := refersTo_bare s hr
    exact .here hr
  | @step s' y sp t x hr ht _ ih =>
    subst hs
    obtain ⟨sp', hr⟩ := refersTo_bare s hr
    obtain ⟨t', ht', rfl⟩ := Option.map_eq_some_iff.mp ht
    exact .step hr ht' (ih rfl)

/-! ### Only what is mentioned matters -/

theorem mapAccum_local {α β σ : Type} {f g : α → σ → Option (β × σ)} {l : List α}
    (h : ∀ a ∈ l, ∀ s, f a s = g a s) (s : σ) : mapAccum f l s = mapAccum g l s := by
  induction l generalizing s with
  | nil => rfl
  | cons a l ih =>
    rw [mapAccum, mapAccum, h a (List.mem_cons_self ..)]
    cases g a s with
    | none => rfl
    | some r =>
      dsimp only
      rw [ih fun a ha => h a (List.mem_cons_of_mem _ ha)]

theorem ser_local {lk lk' : Lookup} (n : Nat) : ∀ (s : Schema) (encl : Option String)
    (K : Known), (∀ x, Mentions lk.get? s x → lk.get? x = lk'.get? x) →
    schemaToJson lk n s encl K = schemaToJson lk' n s encl K := by
  induction n with
  | zero => intro s encl K _; rfl
  | succ n ih =>
    intro s encl K h
    cases s with
    | prim | annotated | logical | enum | fixed => rfl
    | record nm ns d fs e al ps =>
      simp only [schemaToJson]
      cases namedTypePreamble (if e then "error" else "record") nm ns d K encl with
      | error _ => rfl
      | ok r =>
        dsimp only
        rw [mapAccum_local (g := fieldToJson fun s k => schemaToJson lk' n s (ns.or encl) k)]
        intro f hf k
        unfold fieldToJson
        dsimp only
        rw [ih f.schema]
        intro x hx
        refine h x ?_
        cases hx with
        | here hr => exact .here (.field hf hr)
        | step hr ht hm => exact .step (.field hf hr) ht hm
    | array i ps =>
      simp only [schemaToJson]
      rw [ih i]
      intro x hx
      refine h x ?_
      cases hx with
      | here hr => exact .here (.items hr)
      | step hr ht hm => exact .step (.items hr) ht hm
    | map i ps =>
      simp only [schemaToJson]
      rw [ih i]
      intro x hx
      refine h x ?_
      cases hx with
      | here hr => exact .here (.values hr)
      | step hr ht hm => exact .step (.values hr) ht hm
    | union ts b =>
      simp only [schemaToJson]
      rw [mapAccum_local (g := fun s k => schemaToJson lk' n s encl k)]
      intro t ht k
      refine ih t encl k fun x hx => h x ?_
      cases hx with
      | here hr => exact .here (.branch ht hr)
      | step hr ht' hm => exact .step (.branch ht hr) ht' hm
    | ref nm ns ps sp =>
      simp only [schemaToJson]
      split
      · rfl
      · rw [← h _ (.here .ref)]
        cases hg : lk.get? (makeFullName nm ns) with
        | none => rfl
        | some t => exact ih t encl K fun x hx => h x (.step .ref hg hx)

/-- The same for types that are equal up to positions. -/
theorem ser_local_bare {lk lk' : Lookup} {s s' : Schema} (hs : s.bare = s'.bare)
    (h : ∀ x, Mentions lk.get? s x → (lk.get? x).map Schema.bare = (lk'.get? x).map Schema.bare)
    (n : Nat) (encl : Option String) (K : Known) :
    schemaToJson lk n s encl K = schemaToJson lk' n s' encl K := by
  rw [← schemaToJson_bare lk, ← schemaToJson_bare lk', ← hs]
  refine ser_local n _ _ _ fun x hx => ?_
  rw [lookup_bare, lookup_bare]
  refine h x (mentions_bare ?_)
  have : (fun y => (lk.get? y).map Schema.bare) = Lookup.get? (bareTable lk) :=
    funext fun y => (lookup_bare lk y).symm
  rw [this]
  exact hx

/-! ### Definitions without positions -/

mutual
theorem noDefs_bare : (s : Schema) → s.bare.noDefs = s.noDefs
  | .array i ps => by rw [Schema.bare, Schema.noDefs, Schema.noDefs, noDefs_bare i]
  | .map i ps => by rw [Schema.bare, Schema.noDefs, Schema.noDefs, noDefs_bare i]
  | .union ts b => by rw [Schema.bare, Schema.noDefs, Schema.noDefs, noDefsL_bare ts]
  | .record .. | .enum .. | .fixed .. | .prim _ | .annotated .. | .logical .. | .ref .. => by
      simp only [Schema.bare, Schema.noDefs]
theorem noDefsL_bare : (ts : List Schema) → Schema.noDefsL (bareSchemas ts) = Schema.noDefsL ts
  | [] => rfl
  | t :: ts => by
      rw [bareSchemas, Schema.noDefsL, Schema.noDefsL, noDefs_bare t, noDefsL_bare ts]
end

theorem noDefsF_bare (fs : List Field) : Schema.noDefsF (bareFields fs) = Schema.noDefsF fs := by
  induction fs with
  | nil => rfl
  | cons f fs ih => cases f; rw [bareFields, Schema.noDefsF, Schema.noDefsF, noDefs_bare, ih]

theorem flatDef_bare (s : Schema) : s.bare.flatDef = s.flatDef := by
  cases s <;> simp only [Schema.bare, Schema.flatDef, noDefsF_bare]

theorem message_noDefs_bare {m : Message} (h : m.noDefs) : m.bare.noDefs := by
  obtain ⟨h1, h2, h3⟩ := h
  refine ⟨fun f hf => ?_, ?_, fun es he s hs => ?_⟩
  · obtain ⟨g, hg, rfl⟩ := List.mem_map.mp hf
    rw [fieldSchema_bare, noDefs_bare]; exact h1 g hg
  · show m.response.bare.noDefs = true
    rw [noDefs_bare]; exact h2
  · obtain ⟨es', he', rfl⟩ := Option.map_eq_some_iff.mp he
    obtain ⟨t, ht, rfl⟩ := List.mem_map.mp hs
    rw [noDefs_bare]; exact h3 es' he' t ht

/-! ### Tables and known names that agree on the names in question -/

/-- Known names that agree on the names `P`. -/
def SameOn (P : String → Prop) (K K' : Known) : Prop := ∀ x, P x → (x ∈ K ↔ x ∈ K')

/-- Results with the same value and known names that agree on the names `P`. -/
def SameResult {α : Type} (P : String → Prop) (r r' : Option (α × Known)) : Prop :=
  (r = none ∧ r' = none) ∨
  ∃ a K K', r = some (a, K) ∧ r' = some (a, K') ∧ SameOn P K K'

theorem SameResult.both {α : Type} {P : String → Prop} {r r' : Option (α × Known)}
    {a b : α} {K K' : Known} (h : SameResult P r r') (h1 : r = some (a, K))
    (h2 : r' = some (b, K')) : a = b ∧ SameOn P K K' := by
  rcases h with ⟨h, _⟩ | ⟨c, L, L', h, h', hA⟩
  · rw [h] at h1; cases h1
  · rw [h] at h1; rw [h'] at h2
    cases h1; cases h2
    exact ⟨rfl, hA⟩

theorem mapAccum_same {α β : Type} {P : String → Prop} {f g : α → Known → Option (β × Known)}
    {l : List α}
    (h : ∀ a ∈ l, ∀ K K', SameOn P K K' → SameResult P (f a K) (g a K')) {K K' : Known}
    (hK : SameOn P K K') : SameResult P (mapAccum f l K) (mapAccum g l K') := by
  induction l generalizing K K' with
  | nil => exact .inr ⟨[], K, K', rfl, rfl, hK⟩
  | cons a l ih =>
    simp only [mapAccum]
    rcases h a (by simp) K K' hK with ⟨h1, h2⟩ | ⟨b, L, L', h1, h2, hL⟩
    · rw [h1, h2]; exact .inl ⟨rfl, rfl⟩
    · rw [h1, h2]
      dsimp only
      rcases ih (fun a ha => h a (by simp [ha])) hL with ⟨h3, h4⟩ | ⟨bs, M, M', h3, h4, hM⟩
      · rw [h3, h4]; exact .inl ⟨rfl, rfl⟩
      · rw [h3, h4]; exact .inr ⟨_, _, _, rfl, rfl, hM⟩

theorem SameOn.cons {P : String → Prop} {K K' : Known} (h : SameOn P K K') (x : String) :
    SameOn P (x :: K) (x :: K') := fun y hy => by simp [h y hy]

theorem preamble_same {P : String → Prop} {K K' : Known} (h : SameOn P K K')
    {n : String} {ns : Option String} (hp : P (makeFullName n ns)) (t : String)
    (doc encl : Option String) :
    (∃ j, namedTypePreamble t n ns doc K encl = .error j ∧
      namedTypePreamble t n ns doc K' encl = .error j) ∨
    ∃ obj, namedTypePreamble t n ns doc K encl = .ok (obj, makeFullName n ns :: K) ∧
      namedTypePreamble t n ns doc K' encl = .ok (obj, makeFullName n ns :: K') := by
  by_cases hk : makeFullName n ns ∈ K
  · have hk' := (h _ hp).mp hk
    exact .inl ⟨_, by simp [namedTypePreamble, hk]; rfl, by simp [namedTypePreamble, hk']⟩
  · have hk' : makeFullName n ns ∉ K' := fun h' => hk ((h _ hp).mpr h')
    exact .inr ⟨_, by simp [namedTypePreamble, hk]; rfl, by simp [namedTypePreamble, hk']⟩

/-- Types whose own name and whose references are among the names `P`. -/
def Within (P : String → Prop) (s : Schema) : Prop :=
  (s.noDefs = true ∨ (s.flatDef = true ∧ ∀ full, s.fullName? = some full → P full)) ∧
  ∀ x sp, RefersTo s x sp → P x

theorem ser_same {P : String → Prop} {lk lk' : Lookup} (hlk : ∀ x, P x → lk.get? x = lk'.get? x)
    (hcl : ∀ x t, P x → lk.get? x = some t → Within P t) (n : Nat) :
    ∀ (s : Schema) (encl : Option String) (K K' : Known), Within P s → SameOn P K K' →
      SameResult P (schemaToJson lk n s encl K) (schemaToJson lk' n s encl K') := by
  induction n with
  | zero => intro s encl K K' _ _; exact .inl ⟨rfl, rfl⟩
  | succ n ih =>
    intro s encl K K' hs hK
    obtain ⟨hd, hr⟩ := hs
    cases s with
    | prim | annotated | logical => exact .inr ⟨_, _, _, rfl, rfl, hK⟩
    | record nm ns d fs e al ps =>
      obtain ⟨hfl, hp⟩ : Schema.noDefsF fs = true ∧ P (makeFullName nm ns) := by
        rcases hd with hd | ⟨hd, hp⟩
        · simp [Schema.noDefs] at hd
        · exact ⟨hd, hp _ rfl⟩
      have hfs := (Schema.noDefsF_iff fs).mp hfl
      simp only [schemaToJson]
      rcases preamble_same hK hp (if e = true then "error" else "record") d encl with
        ⟨j, h1, h2⟩ | ⟨obj, h1, h2⟩
      · rw [h1, h2]; exact .inr ⟨_, _, _, rfl, rfl, hK⟩
      · rw [h1, h2]
        dsimp only
        have hm : SameResult P
            (mapAccum (fieldToJson fun s k => schemaToJson lk n s (ns.or encl) k) fs
              (makeFullName nm ns :: K))
            (mapAccum (fieldToJson fun s k => schemaToJson lk' n s (ns.or encl) k) fs
              (makeFullName nm ns :: K')) := by
          refine mapAccum_same (fun f hf K K' hK => ?_) (hK.cons _)
          unfold fieldToJson
          dsimp only
          rcases ih f.schema (ns.or encl) K K' ⟨.inl (hfs f hf), fun x sp h => hr x sp (.field hf h)⟩
            hK with ⟨h3, h4⟩ | ⟨j, L, L', h3, h4, hL⟩
          · rw [h3, h4]; exact .inl ⟨rfl, rfl⟩
          · rw [h3, h4]; exact .inr ⟨_, _, _, rfl, rfl, hL⟩
        rcases hm with ⟨h3, h4⟩ | ⟨j, L, L', h3, h4, hL⟩
        · rw [h3, h4]; exact .inl ⟨rfl, rfl⟩
        · rw [h3, h4]; exact .inr ⟨_, _, _, rfl, rfl, hL⟩
    | enum nm ns d sy df al ps =>
      have hp : P (makeFullName nm ns) := by
        rcases hd with hd | ⟨hd, hp⟩
        · simp [Schema.noDefs] at hd
        · exact hp _ rfl
      simp only [schemaToJson]
      rcases preamble_same hK hp "enum" d encl with ⟨j, h1, h2⟩ | ⟨obj, h1, h2⟩
      · rw [h1, h2]; exact .inr ⟨_, _, _, rfl, rfl, hK⟩
      · rw [h1, h2]; exact .inr ⟨_, _, _, rfl, rfl, hK.cons _⟩
    | fixed nm ns d sz al ps =>
      have hp : P (makeFullName nm ns) := by
        rcases hd with hd | ⟨hd, hp⟩
        · simp [Schema.noDefs] at hd
        · exact hp _ rfl
      simp only [schemaToJson]
      rcases preamble_same hK hp "fixed" d encl with ⟨j, h1, h2⟩ | ⟨obj, h1, h2⟩
      · rw [h1, h2]; exact .inr ⟨_, _, _, rfl, rfl, hK⟩
      · rw [h1, h2]; exact .inr ⟨_, _, _, rfl, rfl, hK.cons _⟩
    | array i ps =>
      have hi : i.noDefs = true := by
        rcases hd with hd | ⟨hd, -⟩
        · simpa only [Schema.noDefs] using hd
        · simp [Schema.flatDef] at hd
      simp only [schemaToJson]
      rcases ih i encl K K' ⟨.inl hi, fun x sp h => hr x sp (.items h)⟩ hK with
        ⟨h3, h4⟩ | ⟨j, L, L', h3, h4, hL⟩
      · rw [h3, h4]; exact .inl ⟨rfl, rfl⟩
      · rw [h3, h4]; exact .inr ⟨_, _, _, rfl, rfl, hL⟩
    | map i ps =>
      have hi : i.noDefs = true := by
        rcases hd with hd | ⟨hd, -⟩
        · simpa only [Schema.noDefs] using hd
        · simp [Schema.flatDef] at hd
      simp only [schemaToJson]
      rcases ih i encl K K' ⟨.inl hi, fun x sp h => hr x sp (.values h)⟩ hK with
        ⟨h3, h4⟩ | ⟨j, L, L', h3, h4, hL⟩
      · rw [h3, h4]; exact .inl ⟨rfl, rfl⟩
      · rw [h3, h4]; exact .inr ⟨_, _, _, rfl, rfl, hL⟩
    | union ts b =>
      have hts : ∀ t ∈ ts, t.noDefs = true := by
        rcases hd with hd | ⟨hd, -⟩
        · simp only [Schema.noDefs] at hd; exact (Schema.noDefsL_iff ts).mp hd
        · simp [Schema.flatDef] at hd
      simp only [schemaToJson]
      rcases mapAccum_same (P := P) (f := fun s k => schemaToJson lk n s encl k)
        (g := fun s k => schemaToJson lk' n s encl k)
        (fun t ht K K' hK => ih t encl K K' ⟨.inl (hts t ht), fun x sp h => hr x sp (.branch ht h)⟩
          hK) hK with ⟨h3, h4⟩ | ⟨j, L, L', h3, h4, hL⟩
      · rw [h3, h4]; exact .inl ⟨rfl, rfl⟩
      · rw [h3, h4]; exact .inr ⟨_, _, _, rfl, rfl, hL⟩
    | ref nm ns ps sp =>
      have hp := hr _ _ .ref
      simp only [schemaToJson, List.contains_iff_mem]
      by_cases hk : makeFullName nm ns ∈ K
      · rw [if_pos hk, if_pos ((hK _ hp).mp hk)]
        exact .inr ⟨_, _, _, rfl, rfl, hK⟩
      · rw [if_neg hk, if_neg fun h => hk ((hK _ hp).mpr h), ← hlk _ hp]
        cases hg : lk.get? (makeFullName nm ns) with
        | none => exact .inr ⟨_, _, _, rfl, rfl, hK⟩
        | some t => exact ih t encl K K' (hcl _ t hp hg) hK

theorem message_same {P : String → Prop} {lk lk' : Lookup}
    (hlk : ∀ x, P x → lk.get? x = lk'.get? x)
    (hcl : ∀ x t, P x → lk.get? x = some t → Within P t) (n : Nat) {m : Message}
    (hm : m.noDefs) (hr : (∀ f ∈ m.request, ∀ x sp, RefersTo f.schema x sp → P x) ∧
      (∀ x sp, RefersTo m.response x sp → P x) ∧
      ∀ es, m.errors = some es → ∀ s ∈ es, ∀ x sp, RefersTo s x sp → P x)
    (encl : Option String) {K K' : Known} (hK : SameOn P K K') :
    SameResult P (messageToJson lk n encl m K) (messageToJson lk' n encl m K') := by
  obtain ⟨d1, d2, d3⟩ := hm
  obtain ⟨r1, r2, r3⟩ := hr
  unfold messageToJson
  have h1 : SameResult P
      (mapAccum (fieldToJson fun s k => schemaToJson lk n s encl k) m.request K)
      (mapAccum (fieldToJson fun s k => schemaToJson lk' n s encl k) m.request K') := by
    refine mapAccum_same (fun f hf K K' hK => ?_) hK
    unfold fieldToJson
    dsimp only
    rcases ser_same hlk hcl n f.schema encl K K' ⟨.inl (d1 f hf), r1 f hf⟩
      hK with ⟨h3, h4⟩ | ⟨j, L, L', h3, h4, hL⟩
    · rw [h3, h4]; exact .inl ⟨rfl, rfl⟩
    · rw [h3, h4]; exact .inr ⟨_, _, _, rfl, rfl, hL⟩
  rcases h1 with ⟨h3, h4⟩ | ⟨j, L, L', h3, h4, hL⟩
  · rw [h3, h4]; exact .inl ⟨rfl, rfl⟩
  · rw [h3, h4]
    dsimp only
    rcases ser_same hlk hcl n m.response encl L L' ⟨.inl d2, r2⟩ hL with
      ⟨h5, h6⟩ | ⟨j', M, M', h5, h6, hM⟩
    · rw [h5, h6]; exact .inl ⟨rfl, rfl⟩
    · rw [h5, h6]
      dsimp only
      cases he : m.errors with
      | none => exact .inr ⟨_, _, _, rfl, rfl, hM⟩
      | some es =>
        dsimp only
        rcases mapAccum_same (P := P) (f := fun s k => schemaToJson lk n s encl k)
          (g := fun s k => schemaToJson lk' n s encl k) (l := es)
          (fun t ht K K' hK => ser_same hlk hcl n t encl K K' ⟨.inl (d3 es he t ht), r3 es he t ht⟩
            hK) hM with ⟨h7, h8⟩ | ⟨js, N, N', h7, h8, hN⟩
        · rw [h7, h8]; exact .inl ⟨rfl, rfl⟩
        · rw [h7, h8]; exact .inr ⟨_, _, _, rfl, rfl, hN⟩

/-! ### Loops -/

theorem mapAccum_append {α β σ : Type} (f : α → σ → Option (β × σ)) (l l' : List α) (s : σ) :
    mapAccum f (l ++ l') s = match mapAccum f l s with
      | none => none
      | some (bs, s1) => match mapAccum f l' s1 with
        | none => none
        | some (bs', s2) => some (bs ++ bs', s2) := by
  induction l generalizing s with
  | nil =>
    rw [List.nil_append, mapAccum]
    dsimp only
    cases mapAccum f l' s with
    | none => rfl
    | some r => rfl
  | cons a l ih =>
    rw [List.cons_append, mapAccum, mapAccum]
    cases f a s with
    | none => rfl
    | some r =>
      obtain ⟨b, s1⟩ := r
      dsimp only
      rw [ih]
      cases mapAccum f l s1 with
      | none => rfl
      | some r =>
        obtain ⟨bs, s2⟩ := r
        dsimp only
        cases mapAccum f l' s2 with
        | none => rfl
        | some r => rfl

theorem mapAccum_split {α β σ : Type} {f : α → σ → Option (β × σ)} {l l' : List α} {s s2 : σ}
    {bs : List β} (h : mapAccum f (l ++ l') s = some (bs, s2)) :
    ∃ b1 b2 s1, mapAccum f l s = some (b1, s1) ∧ mapAccum f l' s1 = some (b2, s2) ∧
      bs = b1 ++ b2 := by
  rw [mapAccum_append] at h
  cases h1 : mapAccum f l s with
  | none => rw [h1] at h; cases h
  | some r =>
    obtain ⟨b1, s1⟩ := r
    rw [h1] at h
    dsimp only at h
    cases h2 : mapAccum f l' s1 with
    | none => rw [h2] at h; cases h
    | some r =>
      obtain ⟨b2, s2'⟩ := r
      rw [h2] at h
      simp only [Option.some.injEq, Prod.mk.injEq] at h
      exact ⟨b1, b2, s1, rfl, by rw [h2, ← h.2], h.1.symm⟩

theorem mapAccum_len {α β σ : Type} {f : α → σ → Option (β × σ)} {l : List α} {s s' : σ}
    {bs : List β} (h : mapAccum f l s = some (bs, s')) : bs.length = l.length := by
  induction l generalizing s s' bs with
  | nil =>
    simp only [mapAccum, Option.some.injEq, Prod.mk.injEq] at h
    rw [← h.1]; rfl
  | cons a l ih =>
    simp only [mapAccum] at h
    cases h1 : f a s with
    | none => rw [h1] at h; cases h
    | some r =>
      rw [h1] at h
      dsimp only at h
      cases h2 : mapAccum f l r.2 with
      | none => rw [h2] at h; cases h
      | some q =>
        rw [h2] at h
        simp only [Option.some.injEq, Prod.mk.injEq] at h
        rw [← h.1, List.length_cons, List.length_cons, ih (bs := q.1) (s' := q.2) h2]

/-- Names that become known while a list of types is written are their names, or mentioned by
them. -/
theorem types_known_only {lk : Lookup} (hlk : FlatLookup lk) {n : Nat} {encl : Option String}
    {ts : List Schema} (hts : ∀ t ∈ ts, ∃ full, t.fullName? = some full ∧ lk.get? full = some t)
    {K K' : Known} {js : List Json}
    (h : mapAccum (fun s k => schemaToJson lk n s encl k) ts K = some (js, K')) :
    ∀ x ∈ K', x ∈ K ∨ ∃ t ∈ ts, t.fullName? = some x ∨ Mentions lk.get? t x := by
  induction ts generalizing K K' js with
  | nil =>
    simp only [mapAccum, Option.some.injEq, Prod.mk.injEq] at h
    intro x hx
    rw [← h.2] at hx
    exact .inl hx
  | cons t ts ih =>
    obtain ⟨j1, js', K1, h1, h2, -⟩ := mapAccum_split (l := [t]) (l' := ts) h
    intro x hx
    rcases ih (fun t ht => hts t (by simp [ht])) h2 x hx with hx | ⟨u, hu, hx⟩
    · obtain ⟨full, hf, hg⟩ := hts t (by simp)
      simp only [mapAccum] at h1
      cases hs : schemaToJson lk n t encl K with
      | none => rw [hs] at h1; cases h1
      | some r =>
        obtain ⟨j, K2⟩ := r
        rw [hs] at h1
        simp only [Option.some.injEq, Prod.mk.injEq] at h1
        rw [← h1.2] at hx
        by_cases hk : full ∈ K
        · rw [(ser_known_str (Schema.isNamed_of_flatDef (hlk _ _ hg).1) hf hk hs).2] at hx
          exact .inl hx
        · rcases ((ser_adds lk hlk n).2 _ _ _ _ _ _ hg hk hs).only x hx with h | h | h
          · exact .inl h
          · exact .inr ⟨t, by simp, .inl (by rw [hf, h])⟩
          · exact .inr ⟨t, by simp, .inr (mentions_of_reaches h)⟩
    · exact .inr ⟨u, by simp [hu], hx⟩

/-! ### Protocols with additional types -/

theorem protocol_mono {p : Protocol} {n m : Nat} (hnm : n ≤ m) {j : Json}
    (h : protocolToJson n p = some j) : protocolToJson m p = some j := by
  unfold protocolToJson at h ⊢
  dsimp only at h ⊢
  have hser : ∀ s k r, schemaToJson (buildLookup p.types p.ns) n s p.ns k = some r →
      schemaToJson (buildLookup p.types p.ns) m s p.ns k = some r := fun s k r => ser_mono _ hnm
  have hfield : ∀ f k r, fieldToJson (fun s k => schemaToJson (buildLookup p.types p.ns) n s p.ns k)
      f k = some r →
      fieldToJson (fun s k => schemaToJson (buildLookup p.types p.ns) m s p.ns k) f k = some r := by
    intro f k r hr
    unfold fieldToJson at hr ⊢
    dsimp only at hr ⊢
    cases hs : schemaToJson (buildLookup p.types p.ns) n f.schema p.ns k with
    | none => rw [hs] at hr; cases hr
    | some q => rw [hs] at hr; rw [hser _ _ _ hs]; exact hr
  cases h1 : mapAccum (fun s k => schemaToJson (buildLookup p.types p.ns) n s p.ns k) p.types []
    with
  | none => rw [h1] at h; cases h
  | some r =>
    obtain ⟨ts, K⟩ := r
    rw [mapAccum_mono (fun s _ k r => hser s k r) h1]
    rw [h1] at h
    dsimp only at h ⊢
    cases h2 : mapAccum (fun (nm : String × Message) k =>
        (messageToJson (buildLookup p.types p.ns) n p.ns nm.2 k).map fun jk => ((nm.1, jk.1), jk.2))
        p.messages K with
    | none => rw [h2] at h; cases h
    | some r =>
      rw [mapAccum_mono (fun nm _ k r hr => ?_) h2]
      · rw [h2] at h; exact h
      · obtain ⟨jk, hjk, rfl⟩ := Option.map_eq_some_iff.mp hr
        refine Option.map_eq_some_iff.mpr ⟨jk, ?_, rfl⟩
        unfold messageToJson at hjk ⊢
        cases h3 : mapAccum (fieldToJson fun s k =>
            schemaToJson (buildLookup p.types p.ns) n s p.ns k) nm.2.request k with
        | none => rw [h3] at hjk; cases hjk
        | some r =>
          rw [mapAccum_mono (fun f _ k r => hfield f k r) h3]
          rw [h3] at hjk
          dsimp only at hjk ⊢
          cases h4 : schemaToJson (buildLookup p.types p.ns) n nm.2.response p.ns r.2 with
          | none => rw [h4] at hjk; cases hjk
          | some q =>
            rw [hser _ _ _ h4]
            rw [h4] at hjk
            dsimp only at hjk ⊢
            cases he : nm.2.errors with
            | none => rw [he] at hjk; exact hjk
            | some es =>
              rw [he] at hjk
              dsimp only at hjk ⊢
              cases h5 : mapAccum (fun s k => schemaToJson (buildLookup p.types p.ns) n s p.ns k) es
                  q.2 with
              | none => rw [h5] at hjk; cases hjk
              | some q' =>
                rw [mapAccum_mono (fun s _ k r => hser s k r) h5]
                rw [h5] at hjk
                exact hjk

/-- What the lemma below needs to know of a table without positions. -/
structure Table (lk : Lookup) (types : List Schema) : Prop where
  iff : ∀ x t, lk.get? x = some t ↔ t ∈ types ∧ t.fullName? = some x
  flat : ∀ t ∈ types, t.flatDef = true
  distinct : (fullNames types).Nodup
  lookupNamed : LookupNamed lk

theorem fullNames_bare (types : List Schema) :
    fullNames (types.map Schema.bare) = fullNames types := by
  unfold fullNames
  rw [List.filterMap_map]
  congr 1
  funext s
  exact fullName_bare s

theorem TableOk.bare {d : Option String} {types : List Schema} (h : TableOk d types) :
    Table (buildLookup (types.map Schema.bare) d) (types.map Schema.bare) where
  iff x t := by
    rw [buildLookup_bare, lookup_bare, Option.map_eq_some_iff]
    constructor
    · rintro ⟨s, hs, rfl⟩
      obtain ⟨h1, h2⟩ := h.lookup_iff.mp hs
      exact ⟨List.mem_map_of_mem h1, by rw [fullName_bare, h2]⟩
    · rintro ⟨h1, h2⟩
      obtain ⟨s, hs, rfl⟩ := List.mem_map.mp h1
      rw [fullName_bare] at h2
      exact ⟨s, h.lookup_iff.mpr ⟨hs, h2⟩, rfl⟩
  flat t ht := by
    obtain ⟨s, hs, rfl⟩ := List.mem_map.mp ht
    rw [flatDef_bare]
    exact h.flat s hs
  distinct := by rw [fullNames_bare]; exact h.distinct
  lookupNamed := by
    rw [buildLookup_bare]
    intro kt hkt
    obtain ⟨kt', hkt', rfl⟩ := List.mem_map.mp hkt
    have := h.lookupNamed kt' hkt'
    revert this
    cases kt'.2 <;> simp [Schema.IsNamed, Schema.bare]

theorem Table.flatLookup {lk : Lookup} {types : List Schema} (h : Table lk types) :
    FlatLookup lk := fun x t ht => by
  obtain ⟨h1, h2⟩ := (h.iff x t).mp ht
  exact ⟨h.flat t h1, h2⟩

theorem Table.named {lk : Lookup} {types : List Schema} (h : Table lk types) {t : Schema}
    (ht : t ∈ types) : ∃ full, t.fullName? = some full ∧ lk.get? full = some t := by
  have hn := Schema.isNamed_of_flatDef (h.flat t ht)
  have : ∃ full, t.fullName? = some full := by
    cases t with
    | record | enum | fixed => exact ⟨_, rfl⟩
    | _ => simp [Schema.IsNamed] at hn
  obtain ⟨full, hf⟩ := this
  exact ⟨full, hf, (h.iff _ _).mpr ⟨ht, hf⟩⟩

theorem fullNames_append (l l' : List Schema) : fullNames (l ++ l') = fullNames l ++ fullNames l' :=
  List.filterMap_append ..

theorem types_added {lk lk' : Lookup} {a z b : List Schema} (h1 : Table lk (a ++ b))
    (h2 : Table lk' (a ++ z ++ b))
    (hcl : ∀ t ∈ a ++ b, ∀ x sp, RefersTo t x sp → x ∈ fullNames (a ++ b))
    (hind : ∀ t ∈ z, ∀ x, Mentions lk'.get? t x → x ∉ fullNames b) {n : Nat} {encl : Option String}
    {ts ts' : List Json} {K K' : Known}
    (hj : mapAccum (fun s k => schemaToJson lk n s encl k) (a ++ b) [] = some (ts, K))
    (hj' : mapAccum (fun s k => schemaToJson lk' n s encl k) (a ++ z ++ b) [] = some (ts', K')) :
    (∃ ja jz jb, ts = ja ++ jb ∧ ts' = ja ++ jz ++ jb ∧ ja.length = a.length ∧
      jz.length = z.length ∧ jb.length = b.length) ∧
    SameOn (· ∈ fullNames (a ++ b)) K K' ∧
    (∀ x, x ∈ fullNames (a ++ b) → lk.get? x = lk'.get? x) ∧
    ∀ x t, x ∈ fullNames (a ++ b) → lk.get? x = some t → Within (· ∈ fullNames (a ++ b)) t := by
  have hlk : ∀ x, x ∈ fullNames (a ++ b) → lk.get? x = lk'.get? x := by
    intro x hx
    obtain ⟨t, ht, hf⟩ := mem_fullNames.mp hx
    rw [(h1.iff x t).mpr ⟨ht, hf⟩, (h2.iff x t).mpr ⟨by
      rcases List.mem_append.mp ht with h | h <;> simp [h], hf⟩]
  have hw : ∀ t ∈ a ++ b, Within (· ∈ fullNames (a ++ b)) t := fun t ht =>
    ⟨.inr ⟨h1.flat t ht, fun full hf => mem_fullNames.mpr ⟨t, ht, hf⟩⟩, hcl t ht⟩
  have hcl' : ∀ x t, x ∈ fullNames (a ++ b) → lk.get? x = some t →
      Within (· ∈ fullNames (a ++ b)) t := fun x t _ ht => hw t ((h1.iff x t).mp ht).1
  have hsame := fun t ht encl K K' hK =>
    ser_same hlk hcl' n t encl K K' (hw t ht) hK
  obtain ⟨ja, jb, Ka, e1, e2, rfl⟩ := mapAccum_split hj
  rw [List.append_assoc] at hj'
  obtain ⟨ja', jr, Ka', f1, f2, rfl⟩ := mapAccum_split hj'
  obtain ⟨jz, jb', Kz, f3, f4, rfl⟩ := mapAccum_split f2
  have hempty : SameOn (· ∈ fullNames (a ++ b)) [] [] := fun _ _ => Iff.rfl
  obtain ⟨rfl, hKa⟩ := (mapAccum_same (P := (· ∈ fullNames (a ++ b)))
    (fun t ht K K' hK => hsame t (by simp [ht]) encl K K' hK) hempty).both e1 f1
  have hKz : SameOn (· ∈ fullNames (a ++ b)) Ka Kz := by
    intro x hx
    rw [hKa x hx]
    constructor
    · exact mapAccum_known_mono (fun s _ K j K' hs => ser_known_mono h2.lookupNamed hs) f3 x
    · intro hz
      rcases types_known_only h2.flatLookup (fun t ht => h2.named (by simp [ht])) f3 x hz with
        h | ⟨t, ht, h | h⟩
      · exact h
      · exfalso
        have hd := h2.distinct
        rw [fullNames_append, fullNames_append, List.nodup_append, List.nodup_append] at hd
        have hxz : x ∈ fullNames z := mem_fullNames.mpr ⟨t, ht, h⟩
        rw [fullNames_append, List.mem_append] at hx
        rcases hx with hx | hx
        · exact hd.1.2.2 x hx x hxz rfl
        · exact hd.2.2 x (by simp [hxz]) x hx rfl
      · have hxb := hind t ht x h
        rw [fullNames_append, List.mem_append] at hx
        obtain ⟨u, hu, hf⟩ := mem_fullNames.mp (hx.resolve_right hxb)
        exact mapAccum_types_known h2.lookupNamed f1 u hu
          (Schema.isNamed_of_flatDef (h2.flat u (by simp [hu]))) x hf
  obtain ⟨rfl, hK⟩ := (mapAccum_same (P := (· ∈ fullNames (a ++ b)))
    (fun t ht K K' hK => hsame t (by simp [ht]) encl K K' hK) hKz).both e2 f4
  exact ⟨⟨ja, jz, jb, rfl, by rw [List.append_assoc], mapAccum_len e1, mapAccum_len f3,
    mapAccum_len e2⟩, hK, hlk, hcl'⟩

theorem bareSub {l : List Schema} (h : ∀ t ∈ l, ∀ y sp, RefersTo t y sp →
    y ∈ fullNames l) : ∀ t ∈ l.map Schema.bare, ∀ y sp, RefersTo t y sp →
    y ∈ fullNames (l.map Schema.bare) := by
  intro t ht y sp hr
  obtain ⟨s, hs, rfl⟩ := List.mem_map.mp ht
  obtain ⟨sp', hr⟩ := refersTo_bare s hr
  rw [fullNames_bare]
  exact h s hs y sp' hr

/-- Protocols that differ by types in the middle, none of which mentions a later type of the smaller
protocol. -/
theorem protocol_added {p p' : Protocol} {a b a' z b' : List Schema} (h1 : TableOk p.ns p.types)
    (h2 : TableOk p'.ns p'.types) (hp : p.types = a ++ b) (hp' : p'.types = a' ++ z ++ b')
    (ha : a.map Schema.bare = a'.map Schema.bare) (hb : b.map Schema.bare = b'.map Schema.bare)
    (hsame : { p with types := [] }.bare = { p' with types := [] }.bare)
    (hm : ∀ nm ∈ p.messages, nm.2.noDefs)
    (hrefs : ∀ t ∈ p.types, ∀ x sp, RefersTo t x sp → x ∈ fullNames p.types)
    (hmrefs : ∀ x, FileRefersTo (.protocol p) x → x ∈ fullNames p.types)
    (hind : ∀ t ∈ z, ∀ x, Mentions (buildLookup p'.types p'.ns).get? t x → x ∉ fullNames b')
    {n n' : Nat} {j j' : Json} (hj : protocolToJson n p = some j)
    (hj' : protocolToJson n' p' = some j') :
    (∃ ja jz jb, j.get? "types" = some (.arr (ja ++ jb)) ∧
      j'.get? "types" = some (.arr (ja ++ jz ++ jb)) ∧ ja.length ≤ a.length ∧
      jz.length ≤ z.length ∧ jb.length ≤ b.length) ∧
    ∀ k, k ≠ "types" → j.get? k = j'.get? k := by
  have hj1 := protocol_mono (Nat.le_max_left n n') hj
  have hj2 := protocol_mono (Nat.le_max_right n n') hj'
  rw [← protocolToJson_bare] at hj1 hj2
  have hq := h1.bare
  have hq' := h2.bare
  have hr' := bareSub hrefs
  have hns : p.ns = p'.ns := by have := congrArg Protocol.ns hsame; exact this
  have hname : p.name = p'.name := by have := congrArg Protocol.name hsame; exact this
  have hdoc : p.doc = p'.doc := by have := congrArg Protocol.doc hsame; exact this
  have hprops : p.props = p'.props := by have := congrArg Protocol.props hsame; exact this
  have hmsgs : p.messages.map bareMessage = p'.messages.map bareMessage :=
    congrArg Protocol.messages hsame
  have hmr : ∀ nm ∈ p.messages.map bareMessage, nm.2.noDefs ∧
      (∀ f ∈ nm.2.request, ∀ x sp, RefersTo f.schema x sp →
        x ∈ fullNames (p.types.map Schema.bare)) ∧
      (∀ x sp, RefersTo nm.2.response x sp → x ∈ fullNames (p.types.map Schema.bare)) ∧
      ∀ es, nm.2.errors = some es → ∀ s ∈ es, ∀ x sp, RefersTo s x sp →
        x ∈ fullNames (p.types.map Schema.bare) := by
    intro nm hnm
    obtain ⟨nm, hnm', rfl⟩ := List.mem_map.mp hnm
    rw [fullNames_bare]
    refine ⟨message_noDefs_bare (hm nm hnm'), fun f hf x sp h => ?_, fun x sp h => ?_,
      fun es he s hs x sp h => ?_⟩
    · obtain ⟨g, hg, rfl⟩ := List.mem_map.mp hf
      rw [fieldSchema_bare] at h
      obtain ⟨sp', h⟩ := refersTo_bare _ h
      exact hmrefs x (.parameter hnm' hg h)
    · obtain ⟨sp', h⟩ := refersTo_bare _ h
      exact hmrefs x (.response hnm' h)
    · obtain ⟨es', he', rfl⟩ := Option.map_eq_some_iff.mp he
      obtain ⟨t, ht, rfl⟩ := List.mem_map.mp hs
      obtain ⟨sp', h⟩ := refersTo_bare _ h
      exact hmrefs x (.error hnm' he' ht h)
  have hind' : ∀ t ∈ z.map Schema.bare, ∀ x,
      Mentions (buildLookup (p'.types.map Schema.bare) p'.ns).get? t x →
      x ∉ fullNames (b'.map Schema.bare) := by
    intro t ht x hx
    obtain ⟨s, hs, rfl⟩ := List.mem_map.mp ht
    rw [fullNames_bare]
    refine hind s hs x (mentions_bare ?_)
    have : (fun y => ((buildLookup p'.types p'.ns).get? y).map Schema.bare) =
        Lookup.get? (buildLookup (p'.types.map Schema.bare) p'.ns) := by
      rw [buildLookup_bare]
      exact funext fun y => (lookup_bare _ y).symm
    rw [this]
    exact hx
  unfold protocolToJson Protocol.bare at hj1 hj2
  dsimp only at hj1 hj2
  generalize hl1 : buildLookup (p.types.map Schema.bare) p.ns = lk at hj1 hq
  generalize hl2 : buildLookup (p'.types.map Schema.bare) p'.ns = lk' at hj2 hq' hind'
  generalize max n n' = m at hj1 hj2
  rw [hp', List.map_append, List.map_append, ← ha, ← hb] at hq' hj2
  rw [hp, List.map_append] at hq hj1 hr' hmr
  rw [← hb] at hind'
  rw [← hns] at hj2
  have la : (a.map Schema.bare).length = a.length := List.length_map _
  have lb : (b.map Schema.bare).length = b.length := List.length_map _
  have lz : (z.map Schema.bare).length = z.length := List.length_map _
  generalize a.map Schema.bare = A at *
  generalize b.map Schema.bare = B at *
  generalize z.map Schema.bare = Z at *
  cases e1 : mapAccum (fun s k => schemaToJson lk m s p.ns k) (A ++ B) [] with
  | none => rw [e1] at hj1; cases hj1
  | some r =>
    obtain ⟨ts, K⟩ := r
    rw [e1] at hj1
    cases e2 : mapAccum (fun s k => schemaToJson lk' m s p.ns k) (A ++ Z ++ B) [] with
    | none => rw [e2] at hj2; cases hj2
    | some r =>
      obtain ⟨ts', K'⟩ := r
      rw [e2] at hj2
      dsimp only at hj1 hj2
      obtain ⟨⟨ja, jz, jb, rfl, rfl, l1, l2, l3⟩, hK, hlk, hcl⟩ := types_added hq hq' hr' hind' e1 e2
      have hmsg : SameResult (· ∈ fullNames (A ++ B))
          (mapAccum (fun (nm : String × Message) k =>
            (messageToJson lk m p.ns nm.2 k).map fun jk => ((nm.1, jk.1), jk.2))
            (p.messages.map bareMessage) K)
          (mapAccum (fun (nm : String × Message) k =>
            (messageToJson lk' m p.ns nm.2 k).map fun jk => ((nm.1, jk.1), jk.2))
            (p.messages.map bareMessage) K') := by
        refine mapAccum_same (fun nm hnm K K' hK => ?_) hK
        obtain ⟨d, r⟩ := hmr nm hnm
        rcases message_same hlk hcl m d r p.ns hK with ⟨h3, h4⟩ | ⟨x, L, L', h3, h4, hL⟩
        · rw [h3, h4]; exact .inl ⟨rfl, rfl⟩
        · rw [h3, h4]; exact .inr ⟨_, _, _, rfl, rfl, hL⟩
      rw [← hmsgs] at hj2
      rcases hmsg with ⟨h3, h4⟩ | ⟨ms, L, L', h3, h4, hL⟩
      · rw [h3] at hj1; cases hj1
      · rw [h3] at hj1
        rw [h4] at hj2
        simp only [Option.some.injEq] at hj1 hj2
        subst hj1 hj2
        refine ⟨⟨ja.filter fun v => !v.isStr, jz.filter fun v => !v.isStr,
          jb.filter fun v => !v.isStr, ?_, ?_, ?_, ?_, ?_⟩, fun k hk => ?_⟩
        · show JMap.get? _ _ = _
          simp [protocolObj, JMap.get?_insert]
        · show JMap.get? _ _ = _
          simp [protocolObj, JMap.get?_insert]
        · rw [← la, ← l1]; exact List.length_filter_le ..
        · rw [← lz, ← l2]; exact List.length_filter_le ..
        · rw [← lb, ← l3]; exact List.length_filter_le ..
        · show JMap.get? _ _ = JMap.get? _ _
          simp only [protocolObj, JMap.get?_insert, hk, if_false, hns, hname, hdoc, hprops]

end Avdl
