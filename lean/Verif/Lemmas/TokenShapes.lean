import Verif.Lemmas.Layout
import Verif.Spec.JsonValue
/-!
# The shapes of literal tokens

Integer and string tokens of the lexer have the shapes that the specification of literals gives
meaning to.
-/

namespace Avdl
open Spec Spec.Lexing

theorem matches_oneOf {s w : List Char} : Matches (.oneOf s) w ↔ ∃ c, w = [c] ∧ c ∈ s := by
  unfold Rx.oneOf
  rw [matches_chr]
  simp

theorem matches_opt {a : Rx} {w : List Char} : Matches (.opt a) w ↔ Matches a w ∨ w = [] := by
  unfold Rx.opt
  rw [matches_alt, matches_eps]

theorem matches_plus {a : Rx} {w : List Char} :
    Matches (.plus a) w ↔ ∃ v x, w = v ++ x ∧ Matches a v ∧ Matches (.star a) x := matches_seq

theorem matches_starOneOf {s w : List Char} : Matches (.star (.oneOf s)) w ↔ ∀ c ∈ w, c ∈ s := by
  unfold Rx.oneOf
  rw [matches_starChr]
  simp

instance (r : Nat) (c : Char) (d : Nat) : Decidable (IsDigit r c d) := by
  unfold IsDigit; infer_instance

theorem dec_digit {c : Char} (h : c ∈ ['0', '1', '2', '3', '4', '5', '6', '7', '8', '9']) :
    ∃ d, IsDigit 10 c d := by
  have : ∀ c ∈ ['0', '1', '2', '3', '4', '5', '6', '7', '8', '9'],
      ∃ d ∈ List.range 10, IsDigit 10 c d := by decide
  obtain ⟨d, _, hd⟩ := this c h
  exact ⟨d, hd⟩

theorem oct_digit {c : Char} (h : c ∈ ['0', '1', '2', '3', '4', '5', '6', '7']) :
    ∃ d, IsDigit 8 c d := by
  have : ∀ c ∈ ['0', '1', '2', '3', '4', '5', '6', '7'],
      ∃ d ∈ List.range 8, IsDigit 8 c d := by decide
  obtain ⟨d, _, hd⟩ := this c h
  exact ⟨d, hd⟩

theorem low_oct_digit {c : Char} (h : c ∈ ['0', '1', '2', '3']) : ∃ d, d < 4 ∧ IsDigit 8 c d := by
  have : ∀ c ∈ ['0', '1', '2', '3'], ∃ d ∈ List.range 4, IsDigit 8 c d := by decide
  obtain ⟨d, hr, hd⟩ := this c h
  exact ⟨d, List.mem_range.mp hr, hd⟩

theorem hex_digit {c : Char} (h : c ∈ ['0', '1', '2', '3', '4', '5', '6', '7', '8', '9', 'A', 'B',
    'C', 'D', 'E', 'F', 'a', 'b', 'c', 'd', 'e', 'f']) : ∃ d, IsDigit 16 c d := by
  have : ∀ c ∈ ['0', '1', '2', '3', '4', '5', '6', '7', '8', '9', 'A', 'B',
      'C', 'D', 'E', 'F', 'a', 'b', 'c', 'd', 'e', 'f'],
      ∃ d ∈ List.range 16, IsDigit 16 c d := by decide
  obtain ⟨d, _, hd⟩ := this c h
  exact ⟨d, hd⟩

theorem digits_of {r : Nat} : ∀ {cs : List Char}, (∀ c ∈ cs, ∃ d, IsDigit r c d) →
    ∃ v, Digits r cs v
  | [], _ => ⟨0, .nil⟩
  | c :: cs, h => by
      obtain ⟨d, hd⟩ := h c (List.mem_cons_self ..)
      obtain ⟨v, hv⟩ := digits_of fun x hx => h x (List.mem_cons_of_mem _ hx)
      exact ⟨_, .cons hd hv⟩

theorem int_shape {w : List Char} (h : Matches intRx w) : IsIntegerToken (String.ofList w) := by
  have hu : '_' ∉ w := avoids_matches h (by decide)
  have hf : w.filter (· ≠ '_') = w := by
    rw [List.filter_eq_self]
    intro c hc
    simp only [ne_eq, decide_not, Bool.not_eq_eq_eq_not, Bool.not_true, decide_eq_false_iff_not]
    rintro rfl; exact hu hc
  unfold intRx at h
  simp only [matches_seqs_cons, matches_seqs_nil, matches_opt, matches_lit] at h
  obtain ⟨sign, x, rfl, hsign, body, suffix', rfl, hbody, suffix, e, rfl, hsuf, rfl⟩ := h
  have hs : ∃ negative : Bool, sign = if negative then ['-'] else [] := by
    rcases hsign with rfl | rfl
    · exact ⟨true, rfl⟩
    · exact ⟨false, rfl⟩
  have hl : ∃ long : Bool, if long then suffix = ['l'] ∨ suffix = ['L'] else suffix = [] := by
    rcases hsuf with h | rfl
    · rw [matches_oneOf] at h
      obtain ⟨c, rfl, hc⟩ := h
      refine ⟨true, ?_⟩
      simp only [List.mem_cons, List.not_mem_nil, or_false] at hc
      rcases hc with rfl | rfl
      · exact Or.inr rfl
      · exact Or.inl rfl
    · exact ⟨false, rfl⟩
  obtain ⟨negative, hs⟩ := hs
  obtain ⟨long, hl⟩ := hl
  have hb : ∃ n mag, Magnitude n body mag := by
    simp only [Rx.alts, matches_alt] at hbody
    rcases hbody with h | h | h
    · rw [matches_seq] at h
      obtain ⟨a, b, rfl, ha, hb⟩ := h
      rw [matches_oneOf] at ha
      obtain ⟨c, rfl, hc⟩ := ha
      have hb := matches_starOneOf.mp hb
      have hc0 : c ≠ '0' := by rintro rfl; revert hc; decide
      obtain ⟨v, hv⟩ := digits_of (r := 10) (cs := c :: b) fun x hx => by
        rcases List.mem_cons.mp hx with rfl | hx
        · exact dec_digit (List.mem_cons_of_mem _ hc)
        · exact dec_digit (hb x hx)
      exact ⟨.decimal, v, .decimal hc0 hv⟩
    · simp only [matches_seqs_cons, matches_seqs_nil, matches_lit, matches_oneOf, matches_plus] at h
      obtain ⟨_, _, rfl, rfl, _, _, rfl, ⟨x, rfl, hx⟩, _, _, rfl, ⟨a, b, rfl, ⟨ha, hb⟩⟩, rfl⟩ := h
      obtain ⟨c, rfl, hc⟩ := matches_oneOf.mp ha
      have hb := matches_starOneOf.mp hb
      obtain ⟨v, hv⟩ := digits_of (r := 16) (cs := c :: b) fun x hx => by
        rcases List.mem_cons.mp hx with rfl | hx
        · exact hex_digit hc
        · exact hex_digit (hb x hx)
      refine ⟨.hex, v, ?_⟩
      have := Magnitude.hex (x := x) (cs := c :: b) (v := v) (by
        simp only [List.mem_cons, List.not_mem_nil, or_false] at hx
        exact hx.symm) (by simp) hv
      simpa using this
    · rw [matches_seq] at h
      obtain ⟨a, b, rfl, ha, hb⟩ := h
      rw [matches_lit] at ha
      subst ha
      have hb := matches_starOneOf.mp hb
      obtain ⟨v, hv⟩ := digits_of (r := 8) (cs := b) fun x hx => oct_digit (hb x hx)
      exact ⟨.octal, v, .octal hv⟩
  obtain ⟨n, mag, hb⟩ := hb
  refine ⟨n, negative, long, mag, body, suffix, hb, hl, ?_⟩
  rw [String.toList_ofList, hf, hs]
  simp

/-- One step of the loop of `stringRx`. -/
theorem string_step {v e : List Char} (he : StringBody e)
    (h : Matches (.alts [.noneOf ['\x08', '\t', '\n', '\x0c', '\r', '\\'],
      .seq (.lit '\\') (.alts [.oneOf ['"', '\'', '\\', 'b', 'f', 'n', 'r', 't'],
        .seq octDigitRx (.opt octDigitRx),
        .seqs [.oneOf ['0', '1', '2', '3'], octDigitRx, octDigitRx],
        .seqs [.lit 'u', hexDigitRx, hexDigitRx, hexDigitRx, hexDigitRx]])]) v) :
    StringBody (v ++ e) := by
  simp only [Rx.alts, matches_alt, matches_seq, matches_lit] at h
  rcases h with h | ⟨_, x, rfl, rfl, h⟩
  · unfold Rx.noneOf at h
    rw [matches_chr] at h
    obtain ⟨c, rfl, hc⟩ := h
    refine .plain ?_ he
    rintro rfl
    revert hc; decide
  rcases h with h | h | h | h
  · obtain ⟨c, rfl, hc⟩ := matches_oneOf.mp h
    have : ∀ c ∈ ['"', '\'', '\\', 'b', 'f', 'n', 'r', 't'], ∃ d ∈ namedEscapes.map Prod.snd,
        (c, d) ∈ namedEscapes := by decide
    obtain ⟨d, _, hd⟩ := this c hc
    exact .named hd he
  · unfold octDigitRx at h
    simp only [matches_oneOf, matches_opt] at h
    obtain ⟨_, y, rfl, ⟨a, rfl, ha⟩, h⟩ := h
    rcases h with ⟨b, rfl, hb⟩ | rfl
    · obtain ⟨v, hv⟩ := digits_of (r := 8) (cs := [a, b]) fun x hx => by
        simp only [List.mem_cons, List.not_mem_nil, or_false] at hx
        rcases hx with rfl | rfl
        · exact oct_digit ha
        · exact oct_digit hb
      exact .oct2 hv he
    · obtain ⟨v, hv⟩ := digits_of (r := 8) (cs := [a]) fun x hx => by
        simp only [List.mem_cons, List.not_mem_nil, or_false] at hx
        subst hx; exact oct_digit ha
      exact .oct1 hv he
  · unfold octDigitRx at h
    simp only [matches_seqs_cons, matches_seqs_nil, matches_oneOf] at h
    obtain ⟨_, _, rfl, ⟨a, rfl, ha⟩, _, _, rfl, ⟨b, rfl, hb⟩, _, _, rfl, ⟨c, rfl, hc⟩, rfl⟩ := h
    obtain ⟨da, hlt, hda⟩ := low_oct_digit ha
    obtain ⟨db, hdb⟩ := oct_digit hb
    obtain ⟨dc, hdc⟩ := oct_digit hc
    refine .oct3 (.cons hda (.cons hdb (.cons hdc .nil))) ?_ he
    have h1 := hdb.1
    have h2 := hdc.1
    simp only [List.length_cons, List.length_nil]
    omega
  · unfold hexDigitRx at h
    simp only [matches_seqs_cons, matches_seqs_nil, matches_oneOf, matches_lit] at h
    obtain ⟨_, _, rfl, rfl, _, _, rfl, ⟨a, rfl, ha⟩, _, _, rfl, ⟨b, rfl, hb⟩, _, _, rfl,
      ⟨c, rfl, hc⟩, _, _, rfl, ⟨d, rfl, hd⟩, rfl⟩ := h
    obtain ⟨v, hv⟩ := digits_of (r := 16) (cs := [a, b, c, d]) fun x hx => by
      simp only [List.mem_cons, List.not_mem_nil, or_false] at hx
      rcases hx with rfl | rfl | rfl | rfl
      · exact hex_digit ha
      · exact hex_digit hb
      · exact hex_digit hc
      · exact hex_digit hd
    exact .unicode ⟨0, [a, b, c, d], rfl, hv, rfl⟩ he


theorem string_loop {r r' : Rx} (hr : ∀ v e, StringBody e → Matches r v → StringBody (v ++ e))
    (he : r' = .star r) {w : List Char} (h : Matches r' w) : StringBody w := by
  induction h with
  | done => exact .nil
  | @more a v w h1 _ _ ih2 =>
    injection he with he'
    subst he'
    exact hr v w (ih2 rfl) h1
  | _ => cases he

theorem string_shape {w : List Char} (h : Matches stringRx w) : IsStringToken (String.ofList w) := by
  unfold stringRx at h
  rw [matches_seqs_cons] at h
  obtain ⟨_, y, rfl, h1, h⟩ := h
  rw [matches_seqs_cons] at h
  obtain ⟨e, z, rfl, h2, h⟩ := h
  rw [matches_seqs_cons] at h
  obtain ⟨_, _, rfl, h3, h⟩ := h
  rw [matches_lit] at h1 h3
  rw [matches_seqs_nil] at h
  subst h1 h3 h
  exact ⟨e, by simp [String.toList_ofList], string_loop (fun v e he hm => string_step he hm) rfl h2⟩

end Avdl
