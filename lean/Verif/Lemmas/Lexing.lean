import Verif.Spec.Lexing
/-!
# The lexer finds the longest match of the first rule
-/

namespace Avdl
open Spec.Lexing

/-! ## Expressions -/

theorem matches_never {w : List Char} : ¬ Matches .never w := by intro h; cases h

theorem matches_eps {w : List Char} : Matches .eps w ↔ w = [] := by
  constructor
  · intro h; cases h; rfl
  · rintro rfl; exact .eps

theorem matches_chr {p : Char → Bool} {w : List Char} :
    Matches (.chr p) w ↔ ∃ c, w = [c] ∧ p c = true := by
  constructor
  · intro h; cases h with | chr h => exact ⟨_, rfl, h⟩
  · rintro ⟨c, rfl, h⟩; exact .chr h

theorem matches_seq {a b : Rx} {w : List Char} :
    Matches (.seq a b) w ↔ ∃ v x, w = v ++ x ∧ Matches a v ∧ Matches b x := by
  constructor
  · intro h; cases h with | seq h h' => exact ⟨_, _, rfl, h, h'⟩
  · rintro ⟨v, x, rfl, h, h'⟩; exact .seq h h'

theorem matches_alt {a b : Rx} {w : List Char} :
    Matches (.alt a b) w ↔ Matches a w ∨ Matches b w := by
  constructor
  · intro h
    cases h with
    | left h => exact .inl h
    | right h => exact .inr h
  · rintro (h | h)
    · exact .left h
    · exact .right h

theorem matches_star_cons {a : Rx} {c : Char} {w : List Char} :
    Matches (.star a) (c :: w) ↔
      ∃ v x, w = v ++ x ∧ Matches a (c :: v) ∧ Matches (.star a) x := by
  constructor
  · intro h
    generalize hr : Rx.star a = r at h
    generalize hw : c :: w = cw at h
    induction h with
    | done => cases hw
    | @more a' v x hv hx _ ih =>
      cases hr
      cases v with
      | nil => exact ih rfl hw
      | cons c' v =>
        rw [List.cons_append] at hw
        injection hw with e1 e2
        subst e1
        exact ⟨v, x, e2, hv, hx⟩
    | _ => cases hr
  · rintro ⟨v, x, rfl, h, h'⟩
    exact .more (v := c :: v) h h'

theorem nullable_iff (r : Rx) : r.nullable = true ↔ Matches r [] := by
  induction r with
  | never => simp [Rx.nullable, matches_never]
  | eps => simp [Rx.nullable, matches_eps]
  | chr p => simp [Rx.nullable, matches_chr]
  | seq a b iha ihb =>
    simp only [Rx.nullable, Bool.and_eq_true, iha, ihb, matches_seq]
    constructor
    · rintro ⟨h, h'⟩; exact ⟨[], [], rfl, h, h'⟩
    · rintro ⟨v, x, e, h, h'⟩
      obtain ⟨rfl, rfl⟩ := List.append_eq_nil_iff.mp e.symm
      exact ⟨h, h'⟩
  | alt a b iha ihb => simp [Rx.nullable, iha, ihb, matches_alt]
  | star a _ => simp [Rx.nullable, Matches.done]

theorem matches_mkSeq {a b : Rx} {w : List Char} :
    Matches (.mkSeq a b) w ↔ Matches (.seq a b) w := by
  unfold Rx.mkSeq
  split
  · simp [matches_seq, matches_never]
  · simp [matches_seq, matches_never]
  · rw [matches_seq]
    constructor
    · intro h; exact ⟨[], w, rfl, .eps, h⟩
    · rintro ⟨v, x, rfl, h, h'⟩
      rw [matches_eps] at h
      subst h
      exact h'
  · rfl

theorem matches_mkAlt {a b : Rx} {w : List Char} :
    Matches (.mkAlt a b) w ↔ Matches (.alt a b) w := by
  unfold Rx.mkAlt
  split
  · simp [matches_alt, matches_never]
  · simp [matches_alt, matches_never]
  · rfl

theorem deriv_iff (c : Char) (r : Rx) :
    ∀ w, Matches (r.deriv c) w ↔ Matches r (c :: w) := by
  induction r with
  | never => intro w; simp [Rx.deriv, matches_never]
  | eps => intro w; simp [Rx.deriv, matches_never, matches_eps]
  | chr p =>
    intro w
    unfold Rx.deriv
    rw [matches_chr]
    split
    · rename_i h
      rw [matches_eps]
      constructor
      · rintro rfl; exact ⟨c, rfl, h⟩
      · rintro ⟨c', e, _⟩; injection e
    · rename_i h
      simp only [matches_never, false_iff]
      rintro ⟨c', e, h'⟩
      injection e with e _
      subst e
      exact h h'
  | seq a b iha ihb =>
    intro w
    have hseq : Matches (.mkSeq (a.deriv c) b) w ↔
        ∃ v x, w = v ++ x ∧ Matches a (c :: v) ∧ Matches b x := by
      simp only [matches_mkSeq, matches_seq, iha]
    have hsplit : Matches (.seq a b) (c :: w) ↔
        (∃ v x, w = v ++ x ∧ Matches a (c :: v) ∧ Matches b x) ∨
          (Matches a [] ∧ Matches b (c :: w)) := by
      rw [matches_seq]
      constructor
      · rintro ⟨v, x, e, h, h'⟩
        cases v with
        | nil => exact .inr ⟨h, by rw [e]; exact h'⟩
        | cons c' v =>
          rw [List.cons_append] at e
          injection e with e1 e2
          subst e1
          exact .inl ⟨v, x, e2, h, h'⟩
      · rintro (⟨v, x, e, h, h'⟩ | ⟨h, h'⟩)
        · exact ⟨c :: v, x, by rw [e]; rfl, h, h'⟩
        · exact ⟨[], _, rfl, h, h'⟩
    unfold Rx.deriv
    rw [hsplit, ← nullable_iff]
    split
    · rename_i hn
      rw [matches_mkAlt, matches_alt, hseq, ihb]
      simp [hn]
    · rename_i hn
      rw [hseq]
      simp [hn]
  | alt a b iha ihb =>
    intro w
    simp only [Rx.deriv, matches_mkAlt, matches_alt, iha, ihb]
  | star a iha =>
    intro w
    simp only [Rx.deriv, matches_mkSeq, matches_seq, matches_star_cons, iha]

/-! ## Liveness: what is not `never` matches something -/

/-- No part matches nothing, tested with the given characters. -/
def Rx.live (cs : List Char) : Rx → Bool
  | never => false
  | eps => true
  | chr p => cs.any p
  | seq a b => a.live cs && b.live cs
  | alt a b => a.live cs && b.live cs
  | star a => a.live cs

theorem live_matches {cs : List Char} : ∀ {r : Rx}, r.live cs = true → ∃ w, Matches r w
  | .never, h => by cases h
  | .eps, _ => ⟨[], .eps⟩
  | .chr p, h => by
      obtain ⟨c, _, hc⟩ := List.any_eq_true.mp h
      exact ⟨[c], .chr hc⟩
  | .seq a b, h => by
      simp only [Rx.live, Bool.and_eq_true] at h
      obtain ⟨v, hv⟩ := live_matches h.1
      obtain ⟨w, hw⟩ := live_matches h.2
      exact ⟨v ++ w, .seq hv hw⟩
  | .alt a b, h => by
      simp only [Rx.live, Bool.and_eq_true] at h
      obtain ⟨v, hv⟩ := live_matches h.1
      exact ⟨v, .left hv⟩
  | .star a, _ => ⟨[], .done⟩

theorem live_mkSeq {cs : List Char} {a b : Rx} (ha : a.live cs = true ∨ a = .never)
    (hb : b.live cs = true) : (Rx.mkSeq a b).live cs = true ∨ Rx.mkSeq a b = .never := by
  unfold Rx.mkSeq
  split
  · exact .inr rfl
  · exact .inr rfl
  · exact .inl hb
  · rename_i h _ _
    rcases ha with ha | ha
    · exact .inl (by simp [Rx.live, ha, hb])
    · exact absurd ha h

theorem live_mkAlt {cs : List Char} {a b : Rx} (ha : a.live cs = true ∨ a = .never)
    (hb : b.live cs = true ∨ b = .never) :
    (Rx.mkAlt a b).live cs = true ∨ Rx.mkAlt a b = .never := by
  unfold Rx.mkAlt
  split
  · exact hb
  · exact ha
  · rename_i h h'
    rcases ha with ha | ha
    · rcases hb with hb | hb
      · exact .inl (by simp [Rx.live, ha, hb])
      · exact absurd hb h'
    · exact absurd ha h

theorem live_deriv {cs : List Char} (c : Char) : ∀ {r : Rx}, r.live cs = true →
    (r.deriv c).live cs = true ∨ r.deriv c = .never
  | .never, h => by cases h
  | .eps, _ => .inr rfl
  | .chr p, _ => by
      unfold Rx.deriv
      split
      · exact .inl rfl
      · exact .inr rfl
  | .seq a b, h => by
      simp only [Rx.live, Bool.and_eq_true] at h
      unfold Rx.deriv
      split
      · exact live_mkAlt (live_mkSeq (live_deriv c h.1) h.2) (live_deriv c h.2)
      · exact live_mkSeq (live_deriv c h.1) h.2
  | .alt a b, h => by
      simp only [Rx.live, Bool.and_eq_true] at h
      exact live_mkAlt (live_deriv c h.1) (live_deriv c h.2)
  | .star a, h => live_mkSeq (live_deriv (r := a) c h) h

/-! ## A rule on a text -/

/-- A rule after a text. -/
def LexRule.after (r : LexRule) : List Char → Option LexRule
  | [] => some r
  | c :: cs => (r.step c).bind (·.after cs)

theorem after_append (r : LexRule) (v w : List Char) :
    r.after (v ++ w) = (r.after v).bind (·.after w) := by
  induction v generalizing r with
  | nil => rfl
  | cons c v ih =>
    simp only [List.cons_append, LexRule.after]
    cases r.step c with
    | none => rfl
    | some r' => simp [ih]

theorem step_some {c : Char} {r r' : LexRule} (h : r.step c = some r') :
    r'.kind = r.kind ∧ r'.isLazy = r.isLazy ∧ r'.rx = r.rx.deriv c ∧ r'.rx ≠ .never ∧
      (r.isLazy = true → r.rx.nullable = false) := by
  unfold LexRule.step at h
  split at h
  · cases h
  · rename_i hl
    simp only at h
    split at h
    · cases h
    · rename_i hn
      cases h
      refine ⟨rfl, rfl, rfl, ?_, ?_⟩
      · intro e
        have e : r.rx.deriv c = .never := e
        rw [e] at hn
        exact hn rfl
      · intro hz
        simpa [hz] using hl

theorem step_none {c : Char} {r : LexRule} (h : r.step c = none) :
    (r.isLazy = true ∧ r.rx.nullable = true) ∨ r.rx.deriv c = .never := by
  unfold LexRule.step at h
  split at h
  · rename_i hl
    exact .inl (by simpa using hl)
  · simp only at h
    split at h
    · rename_i hn
      refine .inr ?_
      cases e : r.rx.deriv c with
      | never => rfl
      | _ => rw [e] at hn; cases hn
    · cases h

/-- A rule that is still running after `v`. -/
theorem after_some {v : List Char} : ∀ {r r' : LexRule}, r.after v = some r' →
    r'.kind = r.kind ∧ r'.isLazy = r.isLazy ∧ (∀ w, Matches r'.rx w ↔ Matches r.rx (v ++ w)) ∧
      (r.isLazy = true → ∀ u, u <+: v → u ≠ v → ¬ Matches r.rx u) := by
  induction v with
  | nil =>
    intro r r' h
    cases h
    refine ⟨rfl, rfl, fun _ => Iff.rfl, fun _ u hu hne => ?_⟩
    exact absurd (List.prefix_nil.mp hu) hne
  | cons c v ih =>
    intro r r' h
    simp only [LexRule.after] at h
    obtain ⟨r1, h1, h2⟩ := Option.bind_eq_some_iff.mp h
    obtain ⟨k1, l1, x1, _, n1⟩ := step_some h1
    obtain ⟨k2, l2, m2, z2⟩ := ih h2
    refine ⟨k2.trans k1, l2.trans l1, fun w => ?_, fun hl u hu hne hm => ?_⟩
    · rw [m2, x1, deriv_iff]; rfl
    · cases u with
      | nil =>
        have := n1 hl
        rw [(nullable_iff _).mpr hm] at this
        cases this
      | cons c' u =>
        obtain ⟨rfl, hu'⟩ := List.cons_prefix_cons.mp hu
        refine z2 (by rw [l1, hl]) u hu' (fun e => hne (by rw [e])) ?_
        rw [x1, deriv_iff]
        exact hm

/-- A rule that has stopped before the end of `v` matches nothing that begins with `v`. -/
theorem after_none {v : List Char} : ∀ {r : LexRule}, r.after v = none → ∀ w,
    ¬ RuleMatches r (v ++ w) := by
  induction v with
  | nil => intro r h; cases h
  | cons c v ih =>
    intro r h w hm
    simp only [LexRule.after] at h
    cases h1 : r.step c with
    | none =>
      rcases step_none h1 with ⟨hl, hn⟩ | hd
      · exact hm.2 hl [] (List.nil_prefix) (by simp) ((nullable_iff _).mp hn)
      · have := (deriv_iff c r.rx (v ++ w)).mpr hm.1
        rw [hd] at this
        exact matches_never this
    | some r1 =>
      rw [h1] at h
      obtain ⟨_, l1, x1, _, n1⟩ := step_some h1
      refine ih h w ⟨?_, fun hl u hu hne hmu => ?_⟩
      · rw [x1, deriv_iff]; exact hm.1
      · refine hm.2 (by rw [← l1, hl]) (c :: u) (List.cons_prefix_cons.mpr ⟨rfl, hu⟩) ?_ ?_
        · intro e; injection e with _ e; exact hne e
        · rw [← deriv_iff, ← x1]; exact hmu

theorem ruleMatches_iff {r : LexRule} {v : List Char} :
    RuleMatches r v ↔ ∃ r', r.after v = some r' ∧ r'.rx.nullable = true := by
  constructor
  · intro h
    cases e : r.after v with
    | none => exact absurd (by simpa using h) (after_none e [])
    | some r' =>
      refine ⟨r', rfl, ?_⟩
      obtain ⟨_, _, m, _⟩ := after_some e
      rw [nullable_iff, m, List.append_nil]
      exact h.1
  · rintro ⟨r', e, hn⟩
    obtain ⟨_, _, m, z⟩ := after_some e
    refine ⟨?_, z⟩
    have := (m []).mp ((nullable_iff _).mp hn)
    simpa using this

/-! ## All rules -/

theorem filterMap_after (rs : List LexRule) (v : List Char) (c : Char) :
    (rs.filterMap (·.after v)).filterMap (·.step c) = rs.filterMap (·.after (v ++ [c])) := by
  rw [List.filterMap_filterMap]
  congr 1
  funext r
  rw [after_append]
  congr 1
  funext r'
  simp [LexRule.after]

/-- The first rule that matches `v`. -/
def FirstRule (rs : List LexRule) (k : Kind) (v : List Char) : Prop :=
  ∃ before r after, rs = before ++ r :: after ∧ r.kind = k ∧ RuleMatches r v ∧
    ∀ r' ∈ before, ¬ RuleMatches r' v

theorem accepted_after (rs : List LexRule) (v : List Char) :
    match accepted (rs.filterMap (·.after v)) with
    | some k => FirstRule rs k v
    | none => ∀ r ∈ rs, ¬ RuleMatches r v := by
  induction rs with
  | nil => intro r h; cases h
  | cons r rs ih =>
    cases e : r.after v with
    | none =>
      have hno : ¬ RuleMatches r v := by
        rw [ruleMatches_iff, e]
        rintro ⟨_, h, _⟩
        cases h
      simp only [List.filterMap_cons, e]
      cases ha : accepted (rs.filterMap (·.after v)) with
      | none =>
        rw [ha] at ih
        intro r' hr'
        rcases List.mem_cons.mp hr' with rfl | hr'
        · exact hno
        · exact ih r' hr'
      | some k =>
        rw [ha] at ih
        obtain ⟨b, r', a, e', hk, hm, hb⟩ := ih
        refine ⟨r :: b, r', a, by rw [e']; rfl, hk, hm, ?_⟩
        intro x hx
        rcases List.mem_cons.mp hx with rfl | hx
        · exact hno
        · exact hb x hx
    | some r' =>
      simp only [List.filterMap_cons, e, accepted]
      by_cases hn : r'.rx.nullable = true
      · rw [if_pos hn]
        refine ⟨[], r, rs, rfl, (after_some e).1.symm, ?_, by simp⟩
        exact ruleMatches_iff.mpr ⟨r', e, hn⟩
      · rw [if_neg hn]
        have hno : ¬ RuleMatches r v := by
          rw [ruleMatches_iff, e]
          rintro ⟨_, h, h'⟩
          cases h
          exact hn h'
        cases ha : accepted (rs.filterMap (·.after v)) with
        | none =>
          rw [ha] at ih
          intro x hx
          rcases List.mem_cons.mp hx with rfl | hx
          · exact hno
          · exact ih x hx
        | some k =>
          rw [ha] at ih
          obtain ⟨b, r', a, e', hk, hm, hb⟩ := ih
          refine ⟨r :: b, r', a, by rw [e']; rfl, hk, hm, ?_⟩
          intro x hx
          rcases List.mem_cons.mp hx with rfl | hx
          · exact hno
          · exact hb x hx

/-- The best match among the non-empty beginnings of `v`. -/
def BestMatch (rs : List LexRule) (v : List Char) : Option (Kind × Nat) → Prop
  | none => ∀ r ∈ rs, ∀ u, u <+: v → u ≠ [] → ¬ RuleMatches r u
  | some (k, m) => 0 < m ∧ m ≤ v.length ∧ FirstRule rs k (v.take m) ∧
      ∀ r ∈ rs, ∀ u, u <+: v → RuleMatches r u → u.length ≤ m

theorem best_snoc {rs : List LexRule} {v : List Char} {c : Char} {last : Option (Kind × Nat)}
    (h : BestMatch rs v last) :
    BestMatch rs (v ++ [c]) (match accepted (rs.filterMap (·.after (v ++ [c]))) with
      | some k => some (k, v.length + 1)
      | none => last) := by
  have ha := accepted_after rs (v ++ [c])
  cases e : accepted (rs.filterMap (·.after (v ++ [c]))) with
  | some k =>
    rw [e] at ha
    refine ⟨Nat.succ_pos _, by simp, ?_, ?_⟩
    · rw [List.take_of_length_le (by simp)]; exact ha
    · intro r _ u hu _
      have := hu.length_le
      simpa using this
  | none =>
    rw [e] at ha
    have hpre : ∀ u, u <+: v ++ [c] → u = v ++ [c] ∨ u <+: v := by
      intro u hu
      exact List.prefix_concat_iff.mp hu
    cases last with
    | none =>
      intro r hr u hu hne
      rcases hpre u hu with rfl | hu
      · exact ha r hr
      · exact h r hr u hu hne
    | some km =>
      obtain ⟨k, m⟩ := km
      obtain ⟨h1, h2, h3, h4⟩ := h
      refine ⟨h1, by simp; omega, ?_, ?_⟩
      · rw [List.take_append_of_le_length h2]; exact h3
      · intro r hr u hu hm
        rcases hpre u hu with rfl | hu
        · exact absurd hm (ha r hr)
        · exact h4 r hr u hu hm

/-- When all rules have stopped, nothing longer matches. -/
theorem best_dead {rs : List LexRule} {v : List Char} {c : Char} {cs : List Char}
    {last : Option (Kind × Nat)} (h : BestMatch rs v last)
    (hd : rs.filterMap (·.after (v ++ [c])) = []) : BestMatch rs (v ++ c :: cs) last := by
  have hno : ∀ r ∈ rs, ∀ u, u <+: v ++ c :: cs → RuleMatches r u → u <+: v := by
    intro r hr u hu hm
    by_cases hl : u.length ≤ v.length
    · exact List.prefix_of_prefix_length_le hu (List.prefix_append v _) hl
    · exfalso
      have hv : v ++ [c] <+: u := by
        refine List.prefix_of_prefix_length_le (l₃ := v ++ c :: cs) ?_ hu (by simp; omega)
        exact ⟨cs, by simp⟩
      obtain ⟨x, rfl⟩ := hv
      exact after_none (List.filterMap_eq_nil_iff.mp hd r hr) x hm
  cases last with
  | none =>
    intro r hr u hu hne hm
    exact h r hr u (hno r hr u hu hm) hne hm
  | some km =>
    obtain ⟨k, m⟩ := km
    obtain ⟨h1, h2, h3, h4⟩ := h
    refine ⟨h1, by simp; omega, ?_, fun r hr u hu hm => h4 r hr u (hno r hr u hu hm) hm⟩
    rw [List.take_append_of_le_length h2]
    exact h3

/-- Where the scan stops. -/
def Stops (rs : List LexRule) (input : List Char) (n : Nat) : Prop :=
  0 < n ∧ n ≤ input.length ∧
  (∀ j, j < n → rs.filterMap (·.after (input.take j)) ≠ []) ∧
  (n = input.length ∨ rs.filterMap (·.after (input.take n)) = [])

theorem scan_spec (rs0 : List LexRule) (cs : List Char) : ∀ (v : List Char)
    (last : Option (Kind × Nat)), BestMatch rs0 v last →
    (∀ j, j ≤ v.length → rs0.filterMap (·.after (v.take j)) ≠ []) → v ++ cs ≠ [] →
    match scan (rs0.filterMap (·.after v)) cs v.length last with
    | (some k, m) => BestMatch rs0 (v ++ cs) (some (k, m))
    | (none, n) => BestMatch rs0 (v ++ cs) none ∧ Stops rs0 (v ++ cs) n := by
  induction cs with
  | nil =>
    intro v last hb hv hne
    unfold scan
    simp only [List.append_nil] at hne ⊢
    cases last with
    | some km => exact hb
    | none =>
      refine ⟨hb, List.length_pos_iff.mpr hne, Nat.le_refl _, fun j hj => ?_, .inl rfl⟩
      exact hv j (by omega)
  | cons c cs ih =>
    intro v last hb hv hne
    unfold scan
    rw [filterMap_after]
    have hs := best_snoc (c := c) hb
    have hcons : v ++ c :: cs = v ++ [c] ++ cs := by simp
    cases e : rs0.filterMap (·.after (v ++ [c])) with
    | nil =>
      simp only
      have hd := best_dead (cs := cs) hb e
      cases last with
      | some km => exact hd
      | none =>
        refine ⟨hd, Nat.succ_pos _, by simp, fun j hj => ?_, .inr ?_⟩
        · rw [List.take_append_of_le_length (by omega)]
          exact hv j (by omega)
        · rw [hcons, List.take_append_of_le_length (by simp), List.take_of_length_le (by simp)]
          exact e
    | cons r rs =>
      simp only
      rw [← e, hcons, show v.length + 1 = (v ++ [c]).length by simp]
      have hs' := hs
      rw [show v.length + 1 = (v ++ [c]).length by simp] at hs'
      refine ih (v ++ [c]) _ hs' ?_ (by simp)
      intro j hj
      by_cases hj' : j ≤ v.length
      · rw [List.take_append_of_le_length hj']; exact hv j hj'
      · rw [List.take_of_length_le (by simp at hj ⊢; omega), e]
        simp

/-! ## The rules of the lexer -/

/-- The characters up to U+007F: every class contains one. -/
def asciiChars : List Char := (List.range 128).map Char.ofNat

theorem lexRules_live : lexRules.all (fun r => r.rx.live asciiChars) = true := by
  decide +kernel

theorem lexRules_not_nullable : lexRules.all (fun r => !r.rx.nullable) = true := by
  decide +kernel

theorem no_empty_match {r : LexRule} (hr : r ∈ lexRules) : ¬ RuleMatches r [] := by
  intro h
  have := List.all_eq_true.mp lexRules_not_nullable r hr
  rw [(nullable_iff _).mpr h.1] at this
  cases this

theorem after_live {cs : List Char} {v : List Char} : ∀ {r r' : LexRule}, r.rx.live cs = true →
    r.after v = some r' → r'.rx.live cs = true := by
  induction v with
  | nil => intro r r' hl h; cases h; exact hl
  | cons c v ih =>
    intro r r' hl h
    simp only [LexRule.after] at h
    obtain ⟨r1, h1, h2⟩ := Option.bind_eq_some_iff.mp h
    obtain ⟨_, _, x1, n1, _⟩ := step_some h1
    refine ih ?_ h2
    rcases live_deriv c hl with hd | hd
    · rw [x1]; exact hd
    · exact absurd (x1.trans hd) n1

/-- A text that matches and of which no proper beginning matches. -/
theorem exists_first_match {M : List Char → Prop} : ∀ (n : Nat) (w : List Char), w.length ≤ n → M w →
    ∃ x, M x ∧ ∀ y, y <+: x → y ≠ x → ¬ M y := by
  intro n
  induction n with
  | zero =>
    intro w hl h
    refine ⟨w, h, fun y hy hne => ?_⟩
    have : w = [] := List.length_eq_zero_iff.mp (by omega)
    subst this
    exact absurd (List.prefix_nil.mp hy) hne
  | succ n ih =>
    intro w hl h
    by_cases hex : ∃ y, y <+: w ∧ y ≠ w ∧ M y
    · obtain ⟨y, hy, hne, hm⟩ := hex
      refine ih y ?_ hm
      have h1 := hy.length_le
      have h2 : y.length ≠ w.length := fun e => hne (hy.eq_of_length e)
      omega
    · exact ⟨w, h, fun y hy hne hm => hex ⟨y, hy, hne, hm⟩⟩

theorem viable_iff (v : List Char) : Viable v ↔ lexRules.filterMap (·.after v) ≠ [] := by
  constructor
  · rintro ⟨r, hr, x, hm⟩ he
    exact after_none (List.filterMap_eq_nil_iff.mp he r hr) x hm
  · intro h
    have : ∃ r ∈ lexRules, ∃ r', r.after v = some r' := by
      by_cases hex : ∃ r ∈ lexRules, ∃ r', r.after v = some r'
      · exact hex
      · refine absurd (List.filterMap_eq_nil_iff.mpr fun r hr => ?_) h
        cases e : r.after v with
        | none => rfl
        | some r' => exact absurd ⟨r, hr, r', e⟩ hex
    obtain ⟨r, hr, r', e⟩ := this
    obtain ⟨w, hw⟩ := live_matches (after_live (List.all_eq_true.mp lexRules_live r hr) e)
    obtain ⟨x, hx, hmin⟩ := exists_first_match w.length w (Nat.le_refl _) hw
    obtain ⟨_, _, m, z⟩ := after_some e
    refine ⟨r, hr, x, (m x).mp hx, fun hl u hu hne hmu => ?_⟩
    by_cases hlen : u.length < v.length
    · have huv : u <+: v :=
        List.prefix_of_prefix_length_le hu (List.prefix_append v x) (by omega)
      exact z hl u huv (fun e => by rw [e] at hlen; omega) hmu
    · have hvu : v <+: u :=
        List.prefix_of_prefix_length_le (List.prefix_append v x) hu (by omega)
      obtain ⟨y, rfl⟩ := hvu
      refine hmin y ((List.prefix_append_right_inj v).mp hu) (fun e => hne (by rw [e])) ?_
      exact (m y).mpr hmu

theorem lexOne_spec {cs : List Char} (h : cs ≠ []) :
    match lexOne cs with
    | (some k, m) => 0 < m ∧ m ≤ cs.length ∧ IsToken cs k (cs.take m)
    | (none, n) => 0 < n ∧ n ≤ cs.length ∧ IsUnrecognised cs (cs.take n) := by
  have hb : BestMatch lexRules [] none := by
    intro r _ u hu hne
    exact absurd (List.prefix_nil.mp hu) hne
  have hs := scan_spec lexRules cs [] none hb
    (by
      intro j _
      simp only [List.take_nil, LexRule.after]
      rw [List.filterMap_some]
      decide)
    (by simpa using h)
  have e : lexRules.filterMap (·.after []) = lexRules := by
    simp only [LexRule.after]
    exact List.filterMap_some
  rw [e] at hs
  simp only [List.nil_append, List.length_nil] at hs
  unfold lexOne
  generalize hres : scan lexRules cs 0 none = res at hs ⊢
  obtain ⟨o, m⟩ := res
  cases o with
  | some k =>
    obtain ⟨h1, h2, h3, h4⟩ := hs
    refine ⟨h1, h2, ?_, List.take_prefix _ _, h3, fun r hr v hm hv => ?_⟩
    · intro e
      have := congrArg List.length e
      simp only [List.length_take, List.length_nil] at this
      omega
    · have := h4 r hr v hv hm
      simp only [List.length_take]
      omega
  | none =>
    obtain ⟨hb, h1, h2, h3, h4⟩ := hs
    refine ⟨h1, h2, ?_, List.take_prefix _ _, ?_, ?_, ?_⟩
    · intro e
      have := congrArg List.length e
      simp only [List.length_take, List.length_nil] at this
      omega
    · intro r hr v hm hv
      refine hb r hr v hv (fun e => ?_) hm
      rw [e] at hm
      exact no_empty_match hr hm
    · intro v hv hne
      rw [viable_iff]
      have hl : v.length < m := by
        have h1 := hv.length_le
        have h2 : v.length ≠ (cs.take m).length := fun e => hne (hv.eq_of_length e)
        simp only [List.length_take] at h1 h2
        omega
      have : v = cs.take v.length := by
        have := hv.trans (List.take_prefix m cs)
        exact List.prefix_iff_eq_take.mp this
      rw [this]
      exact h3 _ hl
    · rcases h4 with h4 | h4
      · exact .inl (by rw [h4]; exact List.take_of_length_le (Nat.le_refl _))
      · refine .inr ?_
        rw [viable_iff]
        exact fun h => h h4

/-! ## The pieces -/

theorem firstRule_unique {rs : List LexRule} {k k' : Kind} {v : List Char}
    (h : FirstRule rs k v) (h' : FirstRule rs k' v) : k = k' := by
  obtain ⟨b, r, a, e, hk, hm, hb⟩ := h
  obtain ⟨b', r', a', e', hk', hm', hb'⟩ := h'
  rw [e] at e'
  rcases List.append_eq_append_iff.mp e' with ⟨x, e1, e2⟩ | ⟨x, e1, e2⟩
  · cases x with
    | nil =>
      simp only [List.nil_append] at e2
      injection e2 with e2 _
      rw [← hk, ← hk', e2]
    | cons y x =>
      rw [List.cons_append] at e2
      injection e2 with e2 _
      exact absurd hm (hb' r (by rw [e1, ← e2]; simp))
  · cases x with
    | nil =>
      simp only [List.nil_append] at e2
      injection e2 with e2 _
      rw [← hk, ← hk', e2]
    | cons y x =>
      rw [List.cons_append] at e2
      injection e2 with e2 _
      exact absurd hm' (hb r' (by rw [e1, ← e2]; simp))

theorem firstRule_matches {k : Kind} {v : List Char} (h : FirstRule lexRules k v) :
    ∃ r ∈ lexRules, RuleMatches r v := by
  obtain ⟨b, r, a, e, _, hm, _⟩ := h
  exact ⟨r, by rw [e]; simp, hm⟩

theorem isToken_unique {cs w w' : List Char} {k k' : Kind} (h : IsToken cs k w)
    (h' : IsToken cs k' w') : k = k' ∧ w = w' := by
  obtain ⟨r, hr, hm⟩ := firstRule_matches h.2.2.1
  obtain ⟨r', hr', hm'⟩ := firstRule_matches h'.2.2.1
  have h1 := h'.2.2.2 r hr w hm h.2.1
  have h2 := h.2.2.2 r' hr' w' hm' h'.2.1
  have e : w = w' := by
    have := List.prefix_of_prefix_length_le h.2.1 h'.2.1 h1
    exact this.eq_of_length (by omega)
  subst e
  exact ⟨firstRule_unique h.2.2.1 h'.2.2.1, rfl⟩

theorem not_token_unrecognised {cs w w' : List Char} {k : Kind} (h : IsToken cs k w)
    (h' : IsUnrecognised cs w') : False := by
  obtain ⟨r, hr, hm⟩ := firstRule_matches h.2.2.1
  exact h'.2.2.1 r hr w hm h.2.1

theorem isUnrecognised_unique {cs w w' : List Char} (h : IsUnrecognised cs w)
    (h' : IsUnrecognised cs w') : w = w' := by
  have key : ∀ {w w' : List Char}, IsUnrecognised cs w → IsUnrecognised cs w' →
      w'.length ≤ w.length := by
    intro w w' h h'
    rcases h.2.2.2.2 with e | hv
    · rw [e]; exact h'.2.1.length_le
    · by_cases hl : w.length < w'.length
      · have hp := List.prefix_of_prefix_length_le h.2.1 h'.2.1 (by omega)
        exact absurd (h'.2.2.2.1 w hp (fun e => by rw [e] at hl; omega)) hv
      · omega
  have h1 := key h h'
  have h2 := key h' h
  exact (List.prefix_of_prefix_length_le h.2.1 h'.2.1 h2).eq_of_length (by omega)

theorem lexOne_token {cs w : List Char} {k : Kind} (h : IsToken cs k w) :
    lexOne cs = (some k, w.length) := by
  have hne : cs ≠ [] := by
    rintro rfl
    exact h.1 (List.prefix_nil.mp h.2.1)
  have hs := lexOne_spec hne
  generalize lexOne cs = res at hs
  obtain ⟨o, m⟩ := res
  cases o with
  | some k' =>
    obtain ⟨_, h2, h3⟩ := hs
    obtain ⟨rfl, rfl⟩ := isToken_unique h h3
    rw [List.length_take, Nat.min_eq_left h2]
  | none => exact (not_token_unrecognised h hs.2.2).elim

theorem lexOne_unrecognised {cs w : List Char} (h : IsUnrecognised cs w) :
    lexOne cs = (none, w.length) := by
  have hne : cs ≠ [] := by
    rintro rfl
    exact h.1 (List.prefix_nil.mp h.2.1)
  have hs := lexOne_spec hne
  generalize lexOne cs = res at hs
  obtain ⟨o, m⟩ := res
  cases o with
  | some k' => exact (not_token_unrecognised hs.2.2 h).elim
  | none =>
    obtain ⟨_, h2, h3⟩ := hs
    have := isUnrecognised_unique h h3
    rw [this, List.length_take, Nat.min_eq_left h2]

theorem lexFuel_pieces : ∀ (n : Nat) (cs : List Char), cs.length ≤ n → Pieces cs (lexFuel n cs) := by
  intro n
  induction n with
  | zero =>
    intro cs h
    have : cs = [] := List.length_eq_zero_iff.mp (by omega)
    subst this
    exact .done
  | succ n ih =>
    intro cs h
    cases cs with
    | nil => exact .done
    | cons c cs =>
      unfold lexFuel
      have hs := lexOne_spec (cs := c :: cs) (by simp)
      generalize lexOne (c :: cs) = res at hs ⊢
      obtain ⟨o, m⟩ := res
      have hrec : 0 < m → Pieces ((c :: cs).drop m) (lexFuel n ((c :: cs).drop m)) := by
        intro hm
        refine ih _ ?_
        rw [List.length_drop]
        omega
      cases o with
      | some k =>
        have := Pieces.token (rest := (c :: cs).drop m)
          (by rw [List.take_append_drop]; exact hs.2.2) (hrec hs.1)
        rwa [List.take_append_drop] at this
      | none =>
        have := Pieces.unrecognised (rest := (c :: cs).drop m)
          (by rw [List.take_append_drop]; exact hs.2.2) (hrec hs.1)
        rwa [List.take_append_drop] at this

theorem pieces_unique {cs : List Char} {ps : List Piece} (h : Pieces cs ps) :
    ∀ n, cs.length ≤ n → ps = lexFuel n cs := by
  induction h with
  | done => intro n _; cases n <;> rfl
  | @token k w rest ps ht _ ih =>
    intro n hn
    have hw : 0 < w.length := List.length_pos_iff.mpr ht.1
    simp only [List.length_append] at hn
    cases n with
    | zero => omega
    | succ n =>
      cases w with
      | nil => exact absurd rfl ht.1
      | cons c w =>
        have e := lexOne_token ht
        rw [List.cons_append] at e ⊢
        unfold lexFuel
        rw [e, ← List.cons_append]
        simp only [List.take_left, List.drop_left]
        rw [← ih n (by simp only [List.length_cons] at hn; omega)]
  | @unrecognised w rest ps ht _ ih =>
    intro n hn
    have hw : 0 < w.length := List.length_pos_iff.mpr ht.1
    simp only [List.length_append] at hn
    cases n with
    | zero => omega
    | succ n =>
      cases w with
      | nil => exact absurd rfl ht.1
      | cons c w =>
        have e := lexOne_unrecognised ht
        rw [List.cons_append] at e ⊢
        unfold lexFuel
        rw [e, ← List.cons_append]
        simp only [List.take_left, List.drop_left]
        rw [← ih n (by simp only [List.length_cons] at hn; omega)]

theorem lex_iff {cs : List Char} {ps : List Piece} : Pieces cs ps ↔ lex cs = ps := by
  constructor
  · intro h; exact (pieces_unique h cs.length (Nat.le_refl _)).symm
  · rintro rfl; exact lexFuel_pieces _ _ (Nat.le_refl _)

theorem pieces_text {cs : List Char} {ps : List Piece} (h : Pieces cs ps) :
    ps.flatMap (·.text) = cs := by
  induction h with
  | done => rfl
  | token _ _ ih => simp [ih]
  | unrecognised _ _ ih => simp [ih]

end Avdl
