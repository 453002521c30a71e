import Verif.Lemmas.Layout
import Verif.Spec.Layout
/-!
# Texts put together from tokens
-/

namespace Avdl
open Spec.Lexing Spec.Layout

theorem delimiters_eq : delimiters = sepChars := rfl

theorem firstRule_mem {k : Kind} {v : List Char} (h : FirstRule lexRules k v) :
    ∃ r ∈ lexRules, r.kind = k ∧ RuleMatches r v := by
  obtain ⟨b, r, a, e, hk, hm, _⟩ := h
  exact ⟨r, by rw [e]; simp, hk, hm⟩

/-- A token stays one when more text follows, if nothing longer matches. -/
theorem isToken_extend {t rest more : List Char} {k : Kind} (h : IsToken (t ++ rest) k t)
    (hno : ∀ r ∈ lexRules, ∀ x, x ≠ [] → x <+: rest ++ more → ¬ x <+: rest →
      ¬ RuleMatches r (t ++ x)) : IsToken (t ++ (rest ++ more)) k t := by
  refine ⟨h.1, List.prefix_append _ _, h.2.2.1, fun r hr v hm hv => ?_⟩
  by_cases hl : v.length ≤ t.length
  · exact hl
  · exfalso
    have htv : t <+: v :=
      List.prefix_of_prefix_length_le (List.prefix_append _ _) hv (by omega)
    obtain ⟨x, rfl⟩ := htv
    have hx : x ≠ [] := by rintro rfl; simp at hl
    have hxr : x <+: rest ++ more := (List.prefix_append_right_inj t).mp hv
    refine hno r hr x hx hxr ?_ hm
    intro hxrest
    have := h.2.2.2 r hr (t ++ x) hm ((List.prefix_append_right_inj t).mpr hxrest)
    have := List.length_pos_iff.mpr hx
    simp at *
    omega

theorem isToken_separated {t rest : List Char} {k : Kind} (h : IsToken t k t)
    (hs : Separated k t rest) : IsToken (t ++ rest) k t := by
  have h' : IsToken (t ++ []) k t := by simpa using h
  have := isToken_extend (more := rest) h' ?_
  · simpa using this
  intro r hr x hx hxr _ hm
  simp only [List.nil_append] at hxr
  obtain ⟨r0, h0, hk, hm0⟩ := firstRule_mem h.2.2.1
  obtain ⟨l1, l2, l3, l4⟩ := longer_match h0 hr hm0 hm h.1 hx
  rw [hk] at l1 l2 l3 l4
  cases hs with
  | string => cases l1
  | doc => cases l1
  | block => cases l1
  | space => cases l1
  | sign h1 h2 => simp [Kind.closed, h1, h2] at l1
  | line hl =>
    obtain ⟨rfl, y, hy⟩ := l2 rfl
    obtain ⟨z, rfl⟩ := hxr
    exact hl y z hy rfl
  | empty he =>
    obtain ⟨y, rfl⟩ := l3 rfl
    obtain ⟨z, rfl⟩ := hxr
    exact he ⟨y, z, by simp⟩
  | word hd h1 h2 =>
    have hw := l4 h1 h2
    cases x with
    | nil => exact hx rfl
    | cons c x =>
      obtain ⟨z, rfl⟩ := hxr
      exact hw c (by simp) hd

theorem laidOut_pieces {text : List Char} {ps : List Piece} (h : LaidOut text ps) :
    Pieces text ps := by
  induction h with
  | done => exact .done
  | piece ht hs _ ih => exact .token (isToken_separated ht hs) ih

/-! ## Cutting before a delimiter -/

/-- Tokens of `a` stay tokens when a delimiter follows `a`. -/
theorem pieces_append {a : List Char} {ps : List Piece} (h : Pieces a ps) (hc : Clean ps)
    {s : List Char} {qs : List Piece} (hq : Pieces s qs) (hs : AtDelimiter s)
    (hcr : ∀ x y, a = x ++ ['\r'] → s ≠ '\n' :: y) : Pieces (a ++ s) (ps ++ qs) := by
  induction h with
  | done => exact hq
  | @token k t rest ps ht _ ih =>
    have hrest : ∀ x y, rest = x ++ ['\r'] → s ≠ '\n' :: y := by
      intro x y e
      exact hcr (t ++ x) y (by rw [e]; simp)
    have ih := ih (fun p hp => hc p (by simp [hp])) hrest
    rw [List.append_assoc, List.cons_append]
    refine .token (isToken_extend ht ?_) ih
    intro r hr x hx hxr hxrest hm
    obtain ⟨r0, h0, hk, hm0⟩ := firstRule_mem ht.2.2.1
    obtain ⟨l1, l2, l3, l4⟩ := longer_match h0 hr hm0 hm ht.1 hx
    rw [hk] at l1 l2 l3 l4
    -- the match contains the first character of `s`
    obtain ⟨c, s', rfl, y, rfl⟩ : ∃ c s', s = c :: s' ∧ ∃ y, x = rest ++ c :: y := by
      have hlen : rest.length < x.length := by
        apply Nat.lt_of_not_le
        intro hle
        exact hxrest (List.prefix_of_prefix_length_le hxr (List.prefix_append _ _) hle)
      have hp : rest <+: x :=
        List.prefix_of_prefix_length_le (List.prefix_append _ _) hxr (by omega)
      obtain ⟨y, rfl⟩ := hp
      have hy := (List.prefix_append_right_inj rest).mp hxr
      cases y with
      | nil => simp at hlen
      | cons c y =>
        obtain ⟨z, rfl⟩ := hy
        exact ⟨c, _, rfl, y, rfl⟩
    by_cases h1 : k = .singleLineComment
    · obtain ⟨e, z, hz⟩ := l2 h1
      have : rest = [] ∧ c = '\n' := by
        cases rest with
        | nil => simp only [List.nil_append] at e; injection e with e _; exact ⟨rfl, e⟩
        | cons d rest => simp at e
      obtain ⟨rfl, rfl⟩ := this
      exact hcr z s' (by simpa using hz) rfl
    · by_cases h2 : k = .emptyComment
      · exact (hc ⟨some k, t⟩ (by simp)).2 (by rw [h2])
      · exact l4 h1 h2 c (by simp) hs
  | @unrecognised w _ _ _ _ _ => exact absurd rfl (hc ⟨none, w⟩ (by simp)).1

theorem isToken_of_lex {t : List Char} {k : Kind} (h : lex t = [⟨some k, t⟩]) : IsToken t k t := by
  have hp := lex_iff.mpr h
  generalize hps : [(⟨some k, t⟩ : Piece)] = ps at hp
  generalize hcs : t = cs at hp
  cases hp with
  | done => cases hps
  | token ht hd =>
    injection hps with h1 h2
    injection h1 with h3 h4
    injection h3 with h3
    subst h3 h4
    rw [← hcs] at ht ⊢
    exact ht
  | unrecognised => injection hps with h1 _; injection h1 with h1 _; cases h1

theorem lex_of_isToken {t : List Char} {k : Kind} (h : IsToken t k t) : lex t = [⟨some k, t⟩] :=
  lex_iff.mp (by simpa using Pieces.token (rest := []) (by simpa using h) .done)

/-! ## The token stream -/

theorem streamOf_significant (ps : List Piece) : ∀ offset,
    (streamOf offset ps).map (fun t => (t.kind, t.text)) =
      (significant ps).map fun x => (x.1, String.ofList x.2) := by
  induction ps with
  | nil => intro _; rfl
  | cons p ps ih =>
    intro offset
    obtain ⟨k, t⟩ := p
    cases k with
    | none => simpa [streamOf, significant] using ih _
    | some k =>
      by_cases hk : k.skipped = true
      · simpa [streamOf, significant, hk] using ih _
      · simpa [streamOf, significant, hk] using ih _

theorem significant_append (ps qs : List Piece) :
    significant (ps ++ qs) = significant ps ++ significant qs := by
  simp [significant, List.filterMap_append]

end Avdl
