import Verif.Lexer
import Verif.Lemmas.Suggest
import Verif.Lemmas.Names
/-!
# Spelling suggestions (C32)
-/

namespace Avdl.Props
open Spec

/-! ## The distance -/

/-- C32: the distance computed is the edit distance, when the second text is in ASCII (and, if the
second text is empty, so is the first). -/
theorem C32_distance_partial (a b : List Char) (hb : Ascii b) (hne : b ≠ [] ∨ Ascii a) :
    ∃ n, levenshtein a b = some n ∧ Distance a b n :=
  ⟨_, levenshtein_eq hb hne, distance_lev_reverse a b⟩

example : levenshtein "kitten".toList "sitting".toList = some 3 := by decide
example : ∃ n, levenshtein "kitten".toList "sitting".toList = some n ∧
    Distance "kitten".toList "sitting".toList n :=
  C32_distance_partial _ _ (by decide) (.inl (by decide))

/-- C32: computing the distance never panics. -/
theorem C32_distance_total (a b : List Char) : levenshtein a b ≠ none := by
  obtain ⟨n, h⟩ := levenshtein_some a b
  simp [h]

/-- C32 fails outside ASCII: the distance of `a` and `é` is computed as 0. -/
theorem C32_fails_non_ascii :
    ¬ ∀ a b : List Char, ∃ n, levenshtein a b = some n ∧ Distance a b n := by
  intro h
  obtain ⟨n, h1, h2, h3⟩ := h ['a'] ['é']
  have e : levenshtein ['a'] ['é'] = some 0 := by decide
  rw [e] at h1
  cases h1
  cases h2

/-! ## Suggestions for undefined types -/

theorem simplePart_spec (n : List Char) : SimpleName n (simplePart n) := by
  unfold simplePart
  cases h : rsplitDot n with
  | none => exact ⟨(rsplitDot_none_iff n).mp h, .inl rfl⟩
  | some p =>
    obtain ⟨a, b⟩ := p
    have := rsplitDot_some h
    exact ⟨this.2, .inr ⟨a, this.1⟩⟩

theorem simpleName_unique {n s : List Char} (h : SimpleName n s) : s = simplePart n := by
  unfold simplePart
  rcases h with ⟨h1, h2 | ⟨ns, h2⟩⟩
  · subst h2; rw [(rsplitDot_none_iff n).mpr h1]
  · rw [h2, rsplitDot_append h1]

theorem simplePart_ascii {n : List Char} (h : Ascii n) : Ascii (simplePart n) := by
  rcases simplePart_spec n with ⟨_, h2 | ⟨ns, h2⟩⟩
  · rw [← h2]; exact h
  · intro c hc; exact h c (by rw [h2]; simp [hc])

/-- Of the candidates seen so far, this is the best. -/
def BestOf (C : String → Nat → Prop) (best : Best) : Prop :=
  match best with
  | none => ∀ s d, ¬ C s d
  | some (s, d, _) => C s d ∧ ∀ s' d', C s' d' → d ≤ d'

theorem BestOf.congr {C C' : String → Nat → Prop} {best : Best} (h : BestOf C best)
    (e : ∀ s d, C s d ↔ C' s d) : BestOf C' best := by
  have : C = C' := by funext s d; exact propext (e s d)
  rwa [← this]

theorem near_iff {a b : List Char} {n d : Nat} (h : Distance a b n) :
    Near a b d ↔ d = n ∧ n ≤ tolerance (min a.length b.length) := by
  constructor
  · rintro ⟨h1, h2⟩; have := h1.unique h; subst this; exact ⟨rfl, h2⟩
  · rintro ⟨rfl, h2⟩; exact ⟨h, h2⟩

theorem consider_best {C : String → Nat → Prop} {best best' : Best} {name cand : List Char}
    {sug : String} {prim : Bool} (hn : Ascii name) (hc : Ascii cand) (hb : BestOf C best)
    (h : consider best name cand sug prim = some best') :
    BestOf (fun s d => C s d ∨ (s = sug ∧ Near name cand d)) best' := by
  have hd := distance_lev_reverse name cand
  have hnear := fun d => near_iff (d := d) hd
  simp only [consider, levenshtein_eq hc (.inr hn), utf8Len_ascii hn, utf8Len_ascii hc] at h
  generalize lev name.reverse cand.reverse = n at h hd hnear
  split at h
  · rename_i hcond
    simp only [Option.some.injEq] at h
    subst h
    refine ⟨.inr ⟨rfl, (hnear n).2 ⟨rfl, hcond.1⟩⟩, ?_⟩
    rintro s' d' (h | ⟨_, h⟩)
    · cases best with
      | none => exact absurd h (hb s' d')
      | some b => exact Nat.le_of_lt (Nat.lt_of_lt_of_le (hcond.2 b rfl) (hb.2 s' d' h))
    · rw [hnear] at h; omega
  · rename_i hcond
    simp only [Option.some.injEq] at h
    subst h
    cases best with
    | none =>
      rintro s d (h | ⟨_, h⟩)
      · exact hb s d h
      · rw [hnear] at h
        exact hcond ⟨h.2, by simp⟩
    | some b =>
      refine ⟨.inl hb.1, ?_⟩
      rintro s' d' (h | ⟨_, h⟩)
      · exact hb.2 s' d' h
      · rw [hnear] at h
        rcases Nat.lt_or_ge n b.2.1 with hlt | hge
        · exact absurd ⟨h.2, by simpa using hlt⟩ hcond
        · have : b.2.1 ≤ d' := by rw [h.1]; exact hge
          exact this

theorem consider_some (best : Best) (name cand : List Char) (sug : String) (prim : Bool) :
    ∃ b, consider best name cand sug prim = some b ∧
      (b = best ∨ ∃ d, b = some (sug, d, prim)) := by
  obtain ⟨n, h⟩ := levenshtein_some name cand
  simp only [consider, h]
  split
  · exact ⟨_, rfl, .inr ⟨_, rfl⟩⟩
  · exact ⟨_, rfl, .inl rfl⟩

theorem considerPrims_best {simple : List Char} (hs : Ascii simple) :
    ∀ (ps : List String) (C : String → Nat → Prop) (best best' : Best),
    (∀ p ∈ ps, Ascii p.toList) → BestOf C best → considerPrims simple ps best = some best' →
    BestOf (fun s d => C s d ∨ (s ∈ ps ∧ Near simple s.toList d)) best' := by
  intro ps
  induction ps with
  | nil =>
    intro C best best' _ hb h
    simp only [considerPrims, Option.some.injEq] at h
    subst h
    exact hb.congr (by simp)
  | cons p ps ih =>
    intro C best best' ha hb h
    simp only [considerPrims] at h
    obtain ⟨b, hc, _⟩ := consider_some best simple p.toList p true
    simp only [hc] at h
    have h1 := consider_best hs (ha p (by simp)) hb hc
    refine (ih _ b best' (fun q hq => ha q (by simp [hq])) h1 h).congr ?_
    intro s d
    simp only [List.mem_cons]
    constructor
    · rintro ((h | ⟨rfl, h⟩) | ⟨h, h'⟩)
      · exact .inl h
      · exact .inr ⟨.inl rfl, h⟩
      · exact .inr ⟨.inr h, h'⟩
    · rintro (h | ⟨rfl | h, h'⟩)
      · exact .inl (.inl h)
      · exact .inl (.inr ⟨rfl, h'⟩)
      · exact .inr ⟨h, h'⟩

theorem considerNames_best {u simple : List Char} (hu : Ascii u) (hs : Ascii simple) :
    ∀ (ns : List String) (C : String → Nat → Prop) (best best' : Best),
    (∀ p ∈ ns, Ascii p.toList) → BestOf C best → considerNames u simple ns best = some best' →
    BestOf (fun s d => C s d ∨ (s ∈ ns ∧ (Near u s.toList d ∨
      Near simple (simplePart s.toList) d))) best' := by
  intro ns
  induction ns with
  | nil =>
    intro C best best' _ hb h
    simp only [considerNames, Option.some.injEq] at h
    subst h
    exact hb.congr (by simp)
  | cons p ns ih =>
    intro C best best' ha hb h
    simp only [considerNames] at h
    obtain ⟨b, hc, _⟩ := consider_some best u p.toList p false
    simp only [hc] at h
    obtain ⟨b2, hc2, _⟩ := consider_some b simple (simplePart p.toList) p false
    simp only [hc2] at h
    have h1 := consider_best hu (ha p (by simp)) hb hc
    have h2 := consider_best hs (simplePart_ascii (ha p (by simp))) h1 hc2
    refine (ih _ b2 best' (fun q hq => ha q (by simp [hq])) h2 h).congr ?_
    intro s d
    simp only [List.mem_cons]
    constructor
    · rintro (((h | ⟨rfl, h⟩) | ⟨rfl, h⟩) | ⟨h, h'⟩)
      · exact .inl h
      · exact .inr ⟨.inl rfl, .inl h⟩
      · exact .inr ⟨.inl rfl, .inr h⟩
      · exact .inr ⟨.inr h, h'⟩
    · rintro (h | ⟨rfl | h, h'⟩)
      · exact .inl (.inl (.inl h))
      · rcases h' with h' | h'
        · exact .inl (.inl (.inr ⟨rfl, h'⟩))
        · exact .inl (.inr ⟨rfl, h'⟩)
      · exact .inr ⟨h, h'⟩

theorem candidate_iff (names : List String) (u s : String) (d : Nat) :
    Candidate primitiveTypeNames names u s d ↔
      (s ∈ primitiveTypeNames ∧ Near (simplePart u.toList) s.toList d) ∨
      (s ∈ names ∧ (Near u.toList s.toList d ∨
        Near (simplePart u.toList) (simplePart s.toList) d)) := by
  constructor
  · intro h
    cases h with
    | prim h1 h2 h3 => rw [simpleName_unique h2] at h3; exact .inl ⟨h1, h3⟩
    | full h1 h2 => exact .inr ⟨h1, .inl h2⟩
    | simple h1 h2 h3 h4 =>
      rw [simpleName_unique h2, simpleName_unique h3] at h4; exact .inr ⟨h1, .inr h4⟩
  · rintro (⟨h1, h2⟩ | ⟨h1, h2 | h2⟩)
    · exact .prim h1 (simplePart_spec _) h2
    · exact .full h1 h2
    · exact .simple h1 (simplePart_spec _) (simplePart_spec _) h2

/-- C32: for ASCII names, a suggestion is a primitive or registered type close to the undefined
name, and none is closer; without a suggestion, nothing is close. -/
theorem C32_nearest_partial (u : String) (names : List String) (hu : Ascii u.toList)
    (hn : ∀ n ∈ names, Ascii n.toList) :
    ∃ r, suggestSimilarName u names = some r ∧
      (∀ s note, r = some (.didYouMean s note) → ∃ d,
        Candidate primitiveTypeNames names u s d ∧
        ∀ s' d', Candidate primitiveTypeNames names u s' d' → d ≤ d') ∧
      (r = none → ∀ s d, ¬ Candidate primitiveTypeNames names u s d) := by
  have hs := simplePart_ascii hu
  cases hk : keywordMisuse (simplePart u.toList) with
  | some hint =>
    refine ⟨some hint, by simp [suggestSimilarName, hk], ?_, by simp⟩
    intro s note h
    simp only [Option.some.injEq] at h
    subst h
    simp only [keywordMisuse] at hk
    split at hk
    · simp at hk
    · split at hk <;> simp at hk
  | none =>
    have hp : ∃ b, considerPrims (simplePart u.toList) primitiveTypeNames none = some b := by
      generalize primitiveTypeNames = ps
      generalize (none : Best) = b0
      induction ps generalizing b0 with
      | nil => exact ⟨b0, rfl⟩
      | cons p ps ih =>
        obtain ⟨b, hc, _⟩ := consider_some b0 (simplePart u.toList) p.toList p true
        simp only [considerPrims, hc]
        exact ih b
    obtain ⟨b1, hp⟩ := hp
    have hq : ∃ b, considerNames u.toList (simplePart u.toList) names b1 = some b := by
      clear hn hp
      induction names generalizing b1 with
      | nil => exact ⟨b1, rfl⟩
      | cons p ps ih =>
        obtain ⟨b, hc, _⟩ := consider_some b1 u.toList p.toList p false
        obtain ⟨b2, hc2, _⟩ := consider_some b (simplePart u.toList) (simplePart p.toList) p false
        simp only [considerNames, hc, hc2]
        exact ih b2
    obtain ⟨b2, hq⟩ := hq
    have h1 := considerPrims_best hs primitiveTypeNames (fun _ _ => False) none b1 (by decide)
      (by intro s d h; exact h) hp
    have h2 := considerNames_best hu hs names _ b1 b2 hn h1 hq
    have h3 : BestOf (Candidate primitiveTypeNames names u) b2 := h2.congr (by
      intro s d; rw [candidate_iff]; simp)
    cases b2 with
    | none =>
      refine ⟨none, by simp [suggestSimilarName, hk, hp, hq], by simp, fun _ => h3⟩
    | some b =>
      obtain ⟨s, d, prim⟩ := b
      refine ⟨_, by simp only [suggestSimilarName, hk, hp, hq]; rfl, ?_, by simp⟩
      intro s' note h
      simp only [Option.some.injEq, Hint.didYouMean.injEq] at h
      obtain ⟨rfl, -⟩ := h
      exact ⟨d, h3⟩

example : suggestSimilarName "a.Usr" ["a.Order", "a.User"] =
    some (some (.didYouMean "a.User" false)) := by decide
example : suggestSimilarName "a.String" ["a.Order", "a.User"] =
    some (some (.didYouMean "string" true)) := by decide
example : suggestSimilarName "a.Invoice" ["a.Order", "a.User"] = some none := by decide
example : ∀ n ∈ ["a.Order", "a.User"], Ascii n.toList := by decide

/-- C32: whatever the characters, a suggestion is a primitive or a registered type, and the
remark that primitives are lowercase is made just for a primitive that differs in case only. -/
theorem C32_exists (u : String) (names : List String) :
    ∃ r, suggestSimilarName u names = some r ∧
      ∀ s note, r = some (.didYouMean s note) →
        (s ∈ primitiveTypeNames ∨ s ∈ names) ∧
        (note = true → s ∈ primitiveTypeNames ∧
          (simplePart u.toList).map Char.toLower = s.toList.map Char.toLower) ∧
        (s ∉ names → (simplePart u.toList).map Char.toLower = s.toList.map Char.toLower →
          note = true) := by
  cases hk : keywordMisuse (simplePart u.toList) with
  | some hint =>
    refine ⟨some hint, by simp [suggestSimilarName, hk], ?_⟩
    intro s note h
    simp only [Option.some.injEq] at h
    subst h
    simp only [keywordMisuse] at hk
    split at hk
    · simp at hk
    · split at hk <;> simp at hk
  | none =>
    let OK (b : Best) : Prop := ∀ s d prim, b = some (s, d, prim) →
      if prim then s ∈ primitiveTypeNames else s ∈ names
    have hp : ∀ (ps : List String) (b0 : Best), (∀ p ∈ ps, p ∈ primitiveTypeNames) → OK b0 →
        ∃ b, considerPrims (simplePart u.toList) ps b0 = some b ∧ OK b := by
      intro ps
      induction ps with
      | nil => intro b0 _ h; exact ⟨b0, rfl, h⟩
      | cons p ps ih =>
        intro b0 hps h0
        obtain ⟨b, hc, hb⟩ := consider_some b0 (simplePart u.toList) p.toList p true
        simp only [considerPrims, hc]
        refine ih b (fun q hq => hps q (by simp [hq])) ?_
        rcases hb with rfl | ⟨d, rfl⟩
        · exact h0
        · intro s d' prim h
          simp only [Option.some.injEq, Prod.mk.injEq] at h
          obtain ⟨rfl, rfl, rfl⟩ := h
          exact hps p (by simp)
    have hq : ∀ (ns : List String) (b0 : Best), (∀ p ∈ ns, p ∈ names) → OK b0 →
        ∃ b, considerNames u.toList (simplePart u.toList) ns b0 = some b ∧ OK b := by
      intro ns
      induction ns with
      | nil => intro b0 _ h; exact ⟨b0, rfl, h⟩
      | cons p ns ih =>
        intro b0 hns h0
        have key : ∀ b b' : Best, OK b → (b' = b ∨ ∃ d, b' = some (p, d, false)) → OK b' := by
          intro b b' hb hb'
          rcases hb' with rfl | ⟨d, rfl⟩
          · exact hb
          · intro s d' prim h
            simp only [Option.some.injEq, Prod.mk.injEq] at h
            obtain ⟨rfl, rfl, rfl⟩ := h
            exact hns p (by simp)
        obtain ⟨b, hc, hb⟩ := consider_some b0 u.toList p.toList p false
        obtain ⟨b2, hc2, hb2⟩ :=
          consider_some b (simplePart u.toList) (simplePart p.toList) p false
        simp only [considerNames, hc, hc2]
        exact ih b2 (fun q hq => hns q (by simp [hq])) (key _ _ (key _ _ h0 hb) hb2)
    obtain ⟨b1, h1, ok1⟩ := hp primitiveTypeNames none (fun _ h => h) (by simp [OK])
    obtain ⟨b2, h2, ok2⟩ := hq names b1 (fun _ h => h) ok1
    cases b2 with
    | none => exact ⟨none, by simp [suggestSimilarName, hk, h1, h2], by simp⟩
    | some b =>
      obtain ⟨s, d, prim⟩ := b
      refine ⟨_, by simp only [suggestSimilarName, hk, h1, h2]; rfl, ?_⟩
      intro s' note h
      simp only [Option.some.injEq, Hint.didYouMean.injEq] at h
      obtain ⟨rfl, rfl⟩ := h
      have := ok2 s d prim rfl
      cases prim with
      | true =>
        refine ⟨.inl this, fun h => ⟨this, ?_⟩, fun _ h => ?_⟩
        · simpa [asciiLower] using h
        · simpa [asciiLower] using h
      | false => exact ⟨.inr this, by simp, fun h => absurd this h⟩

/-! ## Suggestions for misspelt keywords -/

/-- A keyword close to an identifier. -/
def NearKeyword (kws : List String) (lower : List Char) (kw : String) (d : Nat) : Prop :=
  kw ∈ kws ∧ Distance lower kw.toList d ∧ d ≤ tolerance kw.toList.length

theorem suggestLoop_spec (lower : List Char) : ∀ (kws : List String) (best : Option (String × Nat)),
    (∀ k ∈ kws, Ascii k.toList ∧ 3 ≤ k.toList.length) →
    ∃ r, suggestLoop lower kws best = some r ∧
      ((∃ k ∈ kws, k.toList = lower) → r = none) ∧
      ((∀ k ∈ kws, k.toList ≠ lower) →
        (r = none → best = none ∧ ∀ k d, ¬ NearKeyword kws lower k d) ∧
        (∀ k, r = some k → ∃ d,
          ((best = some (k, d)) ∨ NearKeyword kws lower k d) ∧
          (∀ b ∈ best, d ≤ b.2) ∧ ∀ k' d', NearKeyword kws lower k' d' → d ≤ d')) := by
  intro kws
  induction kws with
  | nil =>
    intro best _
    refine ⟨best.map Prod.fst, rfl, by simp, fun _ => ⟨?_, ?_⟩⟩
    · intro h
      simp only [Option.map_eq_none_iff] at h
      exact ⟨h, by simp [NearKeyword]⟩
    · intro k h
      cases best with
      | none => simp at h
      | some b =>
        simp only [Option.map_some, Option.some.injEq] at h
        subst h
        exact ⟨b.2, .inl rfl, by simp, by simp [NearKeyword]⟩
  | cons kw kws ih =>
    intro best hk
    obtain ⟨ha, h3⟩ := hk kw (by simp)
    have hne : kw.toList ≠ [] := by intro h; rw [h] at h3; simp at h3
    have hk' : ∀ k ∈ kws, Ascii k.toList ∧ 3 ≤ k.toList.length := fun k hk'' => hk k (by simp [hk''])
    have hd := distance_lev_reverse lower kw.toList
    have hnk : ∀ k d, NearKeyword (kw :: kws) lower k d ↔
        (k = kw ∧ d = lev lower.reverse kw.toList.reverse ∧ d ≤ tolerance kw.toList.length) ∨
        NearKeyword kws lower k d := by
      intro k d
      simp only [NearKeyword, List.mem_cons]
      constructor
      · rintro ⟨rfl | h, h1, h2⟩
        · exact .inl ⟨rfl, h1.unique hd, h2⟩
        · exact .inr ⟨h, h1, h2⟩
      · rintro (⟨rfl, rfl, h⟩ | ⟨h, h1, h2⟩)
        · exact ⟨.inl rfl, hd, h⟩
        · exact ⟨.inr h, h1, h2⟩
    have hzero : lev lower.reverse kw.toList.reverse = 0 ↔ kw.toList = lower := by
      constructor
      · intro h
        rw [h] at hd
        cases hd.1
        rfl
      · intro h
        rw [h]; exact lev_self _
    simp only [suggestLoop, utf8Len_ascii ha, levenshtein_eq ha (.inl hne),
      if_neg (Nat.not_lt.2 h3)]
    generalize lev lower.reverse kw.toList.reverse = n at hd hnk hzero
    split
    · rename_i h0
      refine ⟨none, rfl, by simp, fun h => ?_⟩
      exact absurd (hzero.1 h0) (h kw (by simp))
    · rename_i h0
      have hkw : kw.toList ≠ lower := fun h => h0 (hzero.2 h)
      split
      · rename_i hcond
        obtain ⟨r, hr, hr1, hr2⟩ := ih (some (kw, n)) hk'
        refine ⟨r, hr, ?_, ?_⟩
        · rintro ⟨k, hkm, he⟩
          rcases List.mem_cons.1 hkm with rfl | hkm
          · exact absurd he hkw
          · exact hr1 ⟨k, hkm, he⟩
        · intro h
          obtain ⟨hn, hs⟩ := hr2 fun k hkm => h k (by simp [hkm])
          refine ⟨fun h => by simpa using (hn h).1, ?_⟩
          intro k hk0
          obtain ⟨d, hd1, hd2, hd3⟩ := hs k hk0
          have hdn : d ≤ n := hd2 _ rfl
          refine ⟨d, .inr ?_, ?_, ?_⟩
          · rcases hd1 with hd1 | hd1
            · simp only [Option.some.injEq, Prod.mk.injEq] at hd1
              obtain ⟨rfl, rfl⟩ := hd1
              exact (hnk _ _).2 (.inl ⟨rfl, rfl, hcond.1⟩)
            · exact (hnk _ _).2 (.inr hd1)
          · intro b hb
            exact Nat.le_of_lt (Nat.lt_of_le_of_lt hdn (hcond.2 b hb))
          · intro k' d' hkd
            rcases (hnk _ _).1 hkd with ⟨_, rfl, _⟩ | hkd
            · exact hdn
            · exact hd3 k' d' hkd
      · rename_i hcond
        obtain ⟨r, hr, hr1, hr2⟩ := ih best hk'
        refine ⟨r, hr, ?_, ?_⟩
        · rintro ⟨k, hkm, he⟩
          rcases List.mem_cons.1 hkm with rfl | hkm
          · exact absurd he hkw
          · exact hr1 ⟨k, hkm, he⟩
        · intro h
          obtain ⟨hn, hs⟩ := hr2 fun k hkm => h k (by simp [hkm])
          refine ⟨?_, ?_⟩
          · intro h
            obtain ⟨rfl, h2⟩ := hn h
            refine ⟨rfl, ?_⟩
            intro k d hkd
            rcases (hnk _ _).1 hkd with ⟨_, rfl, ht⟩ | hkd
            · exact hcond ⟨ht, by simp⟩
            · exact h2 k d hkd
          · intro k hk0
            obtain ⟨d, hd1, hd2, hd3⟩ := hs k hk0
            refine ⟨d, ?_, hd2, ?_⟩
            · rcases hd1 with hd1 | hd1
              · exact .inl hd1
              · exact .inr ((hnk _ _).2 (.inr hd1))
            · intro k' d' hkd
              rcases (hnk _ _).1 hkd with ⟨_, rfl, ht⟩ | hkd
              · cases best with
                | none => exact absurd ⟨ht, by simp⟩ hcond
                | some b =>
                  rcases Nat.lt_or_ge d' b.2 with hlt | hge
                  · exact absurd ⟨ht, by simpa using hlt⟩ hcond
                  · exact Nat.le_trans (hd2 b rfl) hge
              · exact hd3 k' d' hkd

/-- C32: the keywords that are suggested are those of the lexer, except `idl`, `true`, `false` and
`decimal` (so a misspelt `decimal` gets no suggestion). -/
theorem C32_keyword_list (w : String) :
    w ∈ avroKeywords ↔ w ∈ lexKeywords ∧ w ∉ ["idl", "true", "false", "decimal"] := by
  have h1 : ∀ w ∈ avroKeywords, w ∈ lexKeywords ∧ w ∉ ["idl", "true", "false", "decimal"] := by
    decide
  have h2 : ∀ w ∈ lexKeywords, w ∉ ["idl", "true", "false", "decimal"] → w ∈ avroKeywords := by
    decide
  exact ⟨h1 w, fun h => h2 w h.1 h.2⟩

/-- C32: for any identifier, the keyword suggested is one of the keywords, is not the identifier
itself, lies within the tolerance, and no keyword is nearer; if the identifier is itself a keyword
or no keyword is within the tolerance, nothing is suggested. -/
theorem C32_keyword (ident : String) :
    ∃ r, suggestKeyword ident = some r ∧
      (∀ kw, r = some kw → ∃ d, 0 < d ∧
        NearKeyword avroKeywords (ident.toList.map Char.toLower) kw d ∧
        ∀ kw' d', NearKeyword avroKeywords (ident.toList.map Char.toLower) kw' d' → d ≤ d') ∧
      (r = none ↔ (∃ kw ∈ avroKeywords, kw.toList = ident.toList.map Char.toLower) ∨
        ∀ kw d, ¬ NearKeyword avroKeywords (ident.toList.map Char.toLower) kw d) := by
  obtain ⟨r, hr, h1, h2⟩ := suggestLoop_spec (asciiLower ident.toList) avroKeywords none (by decide)
  refine ⟨r, hr, ?_, ?_⟩
  · intro kw hkw
    have hne : ∀ k ∈ avroKeywords, k.toList ≠ asciiLower ident.toList := by
      intro k hk he
      rw [h1 ⟨k, hk, he⟩] at hkw
      cases hkw
    obtain ⟨d, hd1, _, hd3⟩ := (h2 hne).2 kw hkw
    rcases hd1 with hd1 | hd1
    · cases hd1
    refine ⟨d, ?_, hd1, hd3⟩
    rcases Nat.eq_zero_or_pos d with rfl | h
    · have he := hd1.2.1.1
      have : asciiLower ident.toList = kw.toList := edits_zero he
      exact absurd this.symm (hne kw hd1.1)
    · exact h
  · constructor
    · intro h
      by_cases hne : ∃ kw ∈ avroKeywords, kw.toList = ident.toList.map Char.toLower
      · exact .inl hne
      · exact .inr ((h2 fun k hk he => hne ⟨k, hk, he⟩).1 h).2
    · rintro (h | h)
      · exact h1 h
      · by_cases hne : ∃ kw ∈ avroKeywords, kw.toList = ident.toList.map Char.toLower
        · exact h1 hne
        · cases hr' : r with
          | none => rfl
          | some k =>
            obtain ⟨d, hd1, _, _⟩ := (h2 fun k hk he => hne ⟨k, hk, he⟩).2 k hr'
            rcases hd1 with hd1 | hd1
            · cases hd1
            · exact absurd hd1 (h k d)

example : suggestKeyword "recrod" = some (some "record") := by decide
example : suggestKeyword "Record" = some none := by decide
example : suggestKeyword "Widget" = some none := by decide

end Avdl.Props
