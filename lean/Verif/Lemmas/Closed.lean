import Verif.Lemmas.Flat
import Verif.Spec.Default
/-! # Which types are written along with a type -/

namespace Avdl
open Spec

/-- The names a schema refers to directly. -/
def Refs (s : Schema) (x : String) : Prop := ∃ sp, RefersTo s x sp

/-- Names among `R` or mentioned by their definitions. -/
def Reaches (lk : Lookup) (R : String → Prop) (x : String) : Prop :=
  R x ∨ ∃ y t, R y ∧ lk.get? y = some t ∧ Mentions lk.get? t x

/-- Writing something with the name `own` (if it is a definition) that refers to the names `R`
brings the known names from `K` to `K'`. -/
structure Adds (lk : Lookup) (own : Option String) (R : String → Prop) (K K' : Known) : Prop where
  grows : ∀ x ∈ K, x ∈ K'
  owned : ∀ x, own = some x → x ∈ K'
  covers : ∀ x t, R x → lk.get? x = some t → x ∈ K'
  only : ∀ x ∈ K', x ∈ K ∨ own = some x ∨ Reaches lk R x
  closed : ∀ x ∈ K', x ∈ K ∨ ∃ t, lk.get? x = some t ∧
    ∀ y, Refs t y → ∀ t', lk.get? y = some t' → y ∈ K'

theorem Adds.nothing {lk : Lookup} {R : String → Prop} (K : Known) (h : ∀ x, ¬ R x) :
    Adds lk none R K K :=
  ⟨fun _ h => h, by simp, fun x _ hx => absurd hx (h x), fun _ h => .inl h, fun _ h => .inl h⟩

theorem Reaches.mono {lk : Lookup} {R R' : String → Prop} (h : ∀ x, R x → R' x) {x : String}
    (hx : Reaches lk R x) : Reaches lk R' x := by
  rcases hx with hx | ⟨y, t, h1, h2, h3⟩
  · exact .inl (h x hx)
  · exact .inr ⟨y, t, h y h1, h2, h3⟩

theorem Adds.congr {lk : Lookup} {own : Option String} {R R' : String → Prop} {K K' : Known}
    (h : Adds lk own R K K') (hr : ∀ x, R x ↔ R' x) : Adds lk own R' K K' where
  grows := h.grows
  owned := h.owned
  covers x t hx := h.covers x t ((hr x).2 hx)
  only x hx := by
    rcases h.only x hx with h | h | h
    · exact .inl h
    · exact .inr (.inl h)
    · exact .inr (.inr (h.mono fun x => (hr x).1))
  closed := h.closed

theorem Adds.append {lk : Lookup} {R R' : String → Prop} {K K1 K2 : Known}
    (h : Adds lk none R K K1) (h' : Adds lk none R' K1 K2) :
    Adds lk none (fun x => R x ∨ R' x) K K2 where
  grows x hx := h'.grows x (h.grows x hx)
  owned := by simp
  covers x t hx ht := hx.elim (fun hx => h'.grows x (h.covers x t hx ht))
    fun hx => h'.covers x t hx ht
  only x hx := by
    rcases h'.only x hx with h1 | h1 | h1
    · rcases h.only x h1 with h1 | h1 | h1
      · exact .inl h1
      · cases h1
      · exact .inr (.inr (h1.mono fun x => .inl))
    · cases h1
    · exact .inr (.inr (h1.mono fun x => .inr))
  closed x hx := by
    rcases h'.closed x hx with h1 | h1
    · rcases h.closed x h1 with h1 | ⟨t, h2, h3⟩
      · exact .inl h1
      · exact .inr ⟨t, h2, fun y hy t' ht' => h'.grows y (h3 y hy t' ht')⟩
    · exact .inr h1

theorem mapAccum_adds {α β : Type} {lk : Lookup} {f : α → Known → Option (β × Known)}
    {R : α → String → Prop} {l : List α}
    (H : ∀ a ∈ l, ∀ K b K', f a K = some (b, K') → Adds lk none (R a) K K') :
    ∀ {K K' : Known} {bs : List β}, mapAccum f l K = some (bs, K') →
      Adds lk none (fun x => ∃ a ∈ l, R a x) K K' := by
  induction l with
  | nil =>
    intro K K' bs h
    simp only [mapAccum, Option.some.injEq, Prod.mk.injEq] at h
    rw [← h.2]
    exact .nothing _ (by simp)
  | cons a l ih =>
    intro K K' bs h
    simp only [mapAccum] at h
    cases h1 : f a K with
    | none => rw [h1] at h; cases h
    | some r =>
      obtain ⟨b, K1⟩ := r
      rw [h1] at h
      simp only at h
      cases h2 : mapAccum f l K1 with
      | none => rw [h2] at h; cases h
      | some r =>
        obtain ⟨bs', K2⟩ := r
        rw [h2] at h
        simp only [Option.some.injEq, Prod.mk.injEq] at h
        rw [← h.2]
        exact ((H a (by simp) _ _ _ h1).append (ih (fun a ha => H a (by simp [ha])) h2)).congr
          (by simp)

/-- The definition that starts with its own name. -/
theorem Adds.defined {lk : Lookup} {R : String → Prop} {K K' : Known} {full : String} {s : Schema}
    (h : Adds lk none R (full :: K) K') (hs : lk.get? full = some s) (hr : ∀ x, R x ↔ Refs s x) :
    Adds lk (some full) (Refs s) K K' where
  grows x hx := h.grows x (by simp [hx])
  owned x hx := h.grows x (by simp_all)
  covers x t hx := h.covers x t ((hr x).2 hx)
  only x hx := by
    rcases h.only x hx with h1 | h1 | h1
    · rcases List.mem_cons.1 h1 with rfl | h1
      · exact .inr (.inl rfl)
      · exact .inl h1
    · cases h1
    · exact .inr (.inr (h1.mono fun x => (hr x).1))
  closed x hx := by
    rcases h.closed x hx with h1 | h1
    · rcases List.mem_cons.1 h1 with rfl | h1
      · exact .inr ⟨s, hs, fun y hy t' ht' => h.covers y t' ((hr y).2 hy) ht'⟩
      · exact .inl h1
    · exact .inr h1

/-- Definitions are flat and stand under their full names. -/
def FlatLookup (lk : Lookup) : Prop :=
  ∀ full t, lk.get? full = some t → t.flatDef = true ∧ t.fullName? = some full

theorem mentions_of_reaches {lk : Lookup} {s : Schema} {x : String} (h : Reaches lk (Refs s) x) :
    Mentions lk.get? s x := by
  rcases h with ⟨_, h⟩ | ⟨y, t, ⟨_, h1⟩, h2, h3⟩
  · exact .here h
  · exact .step h1 h2 h3

theorem ser_adds (lk : Lookup) (hlk : FlatLookup lk) (n : Nat) :
    (∀ s encl K j K', s.noDefs = true → schemaToJson lk n s encl K = some (j, K') →
      Adds lk none (Refs s) K K') ∧
    (∀ s encl K j K' full, lk.get? full = some s → full ∉ K →
      schemaToJson lk n s encl K = some (j, K') → Adds lk (some full) (Refs s) K K') := by
  induction n with
  | zero => constructor <;> intros <;> simp [schemaToJson] at *
  | succ n ih =>
    refine ⟨?_, ?_⟩
    · intro s encl K j K' hnd h
      cases s with
      | prim p =>
        simp only [schemaToJson, Option.some.injEq, Prod.mk.injEq] at h
        rw [← h.2]; exact .nothing _ (by rintro x ⟨sp, h⟩; cases h)
      | annotated k ps =>
        simp only [schemaToJson, Option.some.injEq, Prod.mk.injEq] at h
        rw [← h.2]; exact .nothing _ (by rintro x ⟨sp, h⟩; cases h)
      | logical lt ps =>
        simp only [schemaToJson, Option.some.injEq, Prod.mk.injEq] at h
        rw [← h.2]; exact .nothing _ (by rintro x ⟨sp, h⟩; cases h)
      | enum => simp [Schema.noDefs] at hnd
      | fixed => simp [Schema.noDefs] at hnd
      | record => simp [Schema.noDefs] at hnd
      | array i ps =>
        simp only [Schema.noDefs] at hnd
        simp only [schemaToJson] at h
        cases hsr : schemaToJson lk n i encl K with
        | none => rw [hsr] at h; cases h
        | some r =>
          obtain ⟨j2, K3⟩ := r
          rw [hsr] at h
          simp only [Option.some.injEq, Prod.mk.injEq] at h
          rw [← h.2]
          refine (ih.1 _ _ _ _ _ hnd hsr).congr fun x => ⟨?_, ?_⟩
          · rintro ⟨sp, h⟩; exact ⟨sp, .items h⟩
          · rintro ⟨sp, h⟩; cases h with | items h => exact ⟨sp, h⟩
      | map i ps =>
        simp only [Schema.noDefs] at hnd
        simp only [schemaToJson] at h
        cases hsr : schemaToJson lk n i encl K with
        | none => rw [hsr] at h; cases h
        | some r =>
          obtain ⟨j2, K3⟩ := r
          rw [hsr] at h
          simp only [Option.some.injEq, Prod.mk.injEq] at h
          rw [← h.2]
          refine (ih.1 _ _ _ _ _ hnd hsr).congr fun x => ⟨?_, ?_⟩
          · rintro ⟨sp, h⟩; exact ⟨sp, .values h⟩
          · rintro ⟨sp, h⟩; cases h with | values h => exact ⟨sp, h⟩
      | union ts b =>
        simp only [Schema.noDefs] at hnd
        have hts := (Schema.noDefsL_iff ts).mp hnd
        simp only [schemaToJson] at h
        cases hma : mapAccum (fun s k => schemaToJson lk n s encl k) ts K with
        | none => rw [hma] at h; cases h
        | some r =>
          obtain ⟨j2, K3⟩ := r
          rw [hma] at h
          simp only [Option.some.injEq, Prod.mk.injEq] at h
          rw [← h.2]
          refine (mapAccum_adds (R := Refs) (fun t ht K b K' hb => ih.1 _ _ _ _ _ (hts t ht) hb)
            hma).congr fun x => ⟨?_, ?_⟩
          · rintro ⟨t, ht, sp, h⟩; exact ⟨sp, .branch ht h⟩
          · rintro ⟨sp, h⟩; cases h with | branch ht h => exact ⟨_, ht, sp, h⟩
      | ref nm ns ps sp =>
        have hrefs : ∀ x, Refs (.ref nm ns ps sp) x ↔ x = makeFullName nm ns := by
          intro x
          constructor
          · rintro ⟨sp, h⟩; cases h; rfl
          · rintro rfl; exact ⟨_, .ref⟩
        simp only [schemaToJson] at h
        split at h
        · rename_i hk
          simp only [Option.some.injEq, Prod.mk.injEq] at h
          rw [← h.2]
          refine ⟨fun _ h => h, by simp, fun x t hx _ => ?_, fun _ h => .inl h, fun _ h => .inl h⟩
          rw [(hrefs x).1 hx]; simpa using hk
        · rename_i hk
          have hk : makeFullName nm ns ∉ K := by simpa using hk
          split at h
          · rename_i t ht
            have ha := ih.2 _ _ _ _ _ _ ht hk h
            refine ⟨ha.grows, by simp, fun x t' hx _ => ?_, fun x hx => ?_, ha.closed⟩
            · rw [(hrefs x).1 hx]; exact ha.owned _ rfl
            · rcases ha.only x hx with h1 | h1 | h1
              · exact .inl h1
              · injection h1 with h1
                exact .inr (.inr (.inl ((hrefs x).2 h1.symm)))
              · exact .inr (.inr (.inr ⟨_, t, (hrefs _).2 rfl, ht, mentions_of_reaches h1⟩))
          · rename_i hl
            simp only [Option.some.injEq, Prod.mk.injEq] at h
            rw [← h.2]
            refine ⟨fun _ h => h, by simp, fun x t hx ht => ?_, fun _ h => .inl h,
              fun _ h => .inl h⟩
            rw [(hrefs x).1 hx, hl] at ht
            cases ht
    · intro s encl K j K' full hs hK h
      obtain ⟨hflat, hfull⟩ := hlk full s hs
      cases s with
      | record nm ns doc fs er al ps =>
        simp only [Schema.fullName?, Option.some.injEq] at hfull
        simp only [Schema.flatDef] at hflat
        have hfs := (Schema.noDefsF_iff fs).mp hflat
        rcases preamble_cases (if er = true then "error" else "record") nm ns doc encl K with
          ⟨hk, he⟩ | ⟨hk, obj, he⟩
        · rw [hfull] at hk; exact absurd hk hK
        · simp only [schemaToJson, he] at h
          cases hma : mapAccum (fieldToJson fun s k => schemaToJson lk n s (ns.or encl) k) fs
              (makeFullName nm ns :: K) with
          | none => rw [hma] at h; cases h
          | some r =>
            obtain ⟨fj, K2⟩ := r
            rw [hma] at h
            simp only [Option.some.injEq, Prod.mk.injEq] at h
            rw [← h.2]
            rw [hfull] at hma
            refine (mapAccum_adds (R := fun f : Field => Refs f.schema)
              (fun f hf K b K' hb => ?_) hma).defined hs fun x => ⟨?_, ?_⟩
            · simp only [fieldToJson] at hb
              cases hsr : schemaToJson lk n f.schema (ns.or encl) K with
              | none => rw [hsr] at hb; cases hb
              | some r =>
                obtain ⟨j2, K3⟩ := r
                rw [hsr] at hb
                simp only [Option.some.injEq, Prod.mk.injEq] at hb
                rw [← hb.2]
                exact ih.1 _ _ _ _ _ (hfs f hf) hsr
            · rintro ⟨f, hf, sp, h⟩; exact ⟨sp, .field hf h⟩
            · rintro ⟨sp, h⟩; cases h with | field hf h => exact ⟨_, hf, sp, h⟩
      | enum nm ns doc sy df al ps =>
        simp only [Schema.fullName?, Option.some.injEq] at hfull
        rcases preamble_cases "enum" nm ns doc encl K with ⟨hk, he⟩ | ⟨hk, obj, he⟩
        · rw [hfull] at hk; exact absurd hk hK
        · simp only [schemaToJson, he, Option.some.injEq, Prod.mk.injEq] at h
          rw [← h.2, hfull]
          exact (Adds.nothing (R := fun _ => False) _ (by simp)).defined hs fun x =>
            ⟨False.elim, by rintro ⟨sp, h⟩; cases h⟩
      | fixed nm ns doc sz al ps =>
        simp only [Schema.fullName?, Option.some.injEq] at hfull
        rcases preamble_cases "fixed" nm ns doc encl K with ⟨hk, he⟩ | ⟨hk, obj, he⟩
        · rw [hfull] at hk; exact absurd hk hK
        · simp only [schemaToJson, he, Option.some.injEq, Prod.mk.injEq] at h
          rw [← h.2, hfull]
          exact (Adds.nothing (R := fun _ => False) _ (by simp)).defined hs fun x =>
            ⟨False.elim, by rintro ⟨sp, h⟩; cases h⟩
      | prim | annotated | logical | array | map | union | ref => simp [Schema.flatDef] at hflat

/-- From closedness: whatever a known name's definition mentions is known. -/
theorem Adds.mentions {lk : Lookup} {own : Option String} {R : String → Prop} {K' : Known}
    (h : Adds lk own R [] K') {s : Schema} (hs : ∀ x, Refs s x → ∀ t, lk.get? x = some t → x ∈ K')
    (hres : ∀ full t, lk.get? full = some t → ∀ x, Refs t x → ∃ t', lk.get? x = some t')
    (hress : ∀ x, Refs s x → ∃ t, lk.get? x = some t) {x : String}
    (hm : Mentions lk.get? s x) : x ∈ K' := by
  induction hm with
  | here hr =>
    obtain ⟨t, ht⟩ := hress _ ⟨_, hr⟩
    exact hs _ ⟨_, hr⟩ t ht
  | step hr ht _ ih =>
    have hy := hs _ ⟨_, hr⟩ _ ht
    refine ih (fun x hx t' ht' => ?_) (hres _ _ ht)
    rcases h.closed _ hy with h1 | ⟨t2, h2, h3⟩
    · cases h1
    · rw [ht] at h2
      injection h2 with h2
      subst h2
      exact h3 x hx t' ht'

end Avdl
