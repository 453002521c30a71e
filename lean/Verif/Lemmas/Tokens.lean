import Verif.Lemmas.TokenShapes
import Verif.Spec.Tokens
/-!
# The rules of the lexer match the texts of tokens
-/

namespace Avdl
open Spec.Lexing Spec.Tokens

/-! ## Characters -/

theorem char_of_toNat {c : Char} {n : Nat} (h : c.toNat = n) : c = Char.ofNat n := by
  subst h; exact (Char.ofNat_toNat c).symm

theorem dec_iff {c : Char} :
    c ∈ ['0', '1', '2', '3', '4', '5', '6', '7', '8', '9'] ↔ Dec c := by
  constructor
  · intro h
    have : ∀ c ∈ ['0', '1', '2', '3', '4', '5', '6', '7', '8', '9'],
        48 ≤ c.toNat ∧ c.toNat ≤ 57 := by decide
    exact this c h
  · intro ⟨h1, h2⟩
    have : ∀ n ∈ List.range 58, 48 ≤ n →
        Char.ofNat n ∈ ['0', '1', '2', '3', '4', '5', '6', '7', '8', '9'] := by decide
    have := this c.toNat (List.mem_range.mpr (by omega)) h1
    rwa [Char.ofNat_toNat] at this

theorem oct_iff {c : Char} : c ∈ ['0', '1', '2', '3', '4', '5', '6', '7'] ↔ Oct c := by
  constructor
  · intro h
    have : ∀ c ∈ ['0', '1', '2', '3', '4', '5', '6', '7'], 48 ≤ c.toNat ∧ c.toNat ≤ 55 := by decide
    exact this c h
  · intro ⟨h1, h2⟩
    have : ∀ n ∈ List.range 56, 48 ≤ n →
        Char.ofNat n ∈ ['0', '1', '2', '3', '4', '5', '6', '7'] := by decide
    have := this c.toNat (List.mem_range.mpr (by omega)) h1
    rwa [Char.ofNat_toNat] at this

instance (c : Char) : Decidable (Dec c) := by unfold Dec; infer_instance
instance (c : Char) : Decidable (Oct c) := by unfold Oct; infer_instance
instance (c : Char) : Decidable (Hex c) := by unfold Hex; infer_instance

theorem hex_iff {c : Char} :
    c ∈ ['0', '1', '2', '3', '4', '5', '6', '7', '8', '9', 'A', 'B', 'C', 'D', 'E', 'F', 'a', 'b',
      'c', 'd', 'e', 'f'] ↔ Hex c := by
  constructor
  · intro h
    have : ∀ c ∈ ['0', '1', '2', '3', '4', '5', '6', '7', '8', '9', 'A', 'B', 'C', 'D', 'E', 'F',
        'a', 'b', 'c', 'd', 'e', 'f'], Hex c := by decide
    exact this c h
  · intro h
    have hl : c.toNat < 103 := by
      unfold Hex Dec at h; omega
    have : ∀ n ∈ List.range 103, Hex (Char.ofNat n) →
        Char.ofNat n ∈ ['0', '1', '2', '3', '4', '5', '6', '7', '8', '9', 'A', 'B', 'C', 'D', 'E',
          'F', 'a', 'b', 'c', 'd', 'e', 'f'] := by decide
    have := this c.toNat (List.mem_range.mpr hl)
    rw [Char.ofNat_toNat] at this
    exact this h

theorem matches_dec {w : List Char} : Matches digitRx w ↔ ∃ c, w = [c] ∧ Dec c := by
  unfold digitRx; rw [matches_oneOf]; simp only [dec_iff]
theorem matches_oct {w : List Char} : Matches octDigitRx w ↔ ∃ c, w = [c] ∧ Oct c := by
  unfold octDigitRx; rw [matches_oneOf]; simp only [oct_iff]
theorem matches_hex {w : List Char} : Matches hexDigitRx w ↔ ∃ c, w = [c] ∧ Hex c := by
  unfold hexDigitRx; rw [matches_oneOf]; simp only [hex_iff]

theorem matches_decs {w : List Char} : Matches (.star digitRx) w ↔ All Dec w := by
  unfold digitRx; rw [matches_starOneOf]; simp only [dec_iff]; rfl
theorem matches_octs {w : List Char} : Matches (.star octDigitRx) w ↔ All Oct w := by
  unfold octDigitRx; rw [matches_starOneOf]; simp only [oct_iff]; rfl
theorem matches_hexs {w : List Char} : Matches (.star hexDigitRx) w ↔ All Hex w := by
  unfold hexDigitRx; rw [matches_starOneOf]; simp only [hex_iff]; rfl

theorem some_cons {P : Char → Prop} {w : List Char} :
    Some' P w ↔ ∃ v x, w = v ++ x ∧ (∃ c, v = [c] ∧ P c) ∧ All P x := by
  constructor
  · rintro ⟨hne, h⟩
    cases w with
    | nil => exact absurd rfl hne
    | cons c cs => exact ⟨[c], cs, rfl, ⟨c, rfl, h c (by simp)⟩, fun d hd => h d (by simp [hd])⟩
  · rintro ⟨_, x, rfl, ⟨c, rfl, hc⟩, hx⟩
    refine ⟨by simp, fun d hd => ?_⟩
    rcases List.mem_cons.mp hd with rfl | hd
    · exact hc
    · exact hx d hd

theorem matches_someDec {w : List Char} : Matches (.plus digitRx) w ↔ Some' Dec w := by
  rw [matches_plus, some_cons]; simp only [matches_dec, matches_decs]
theorem matches_someHex {w : List Char} : Matches (.plus hexDigitRx) w ↔ Some' Hex w := by
  rw [matches_plus, some_cons]; simp only [matches_hex, matches_hexs]

/-! ## Numbers -/

theorem intBody_iff {w : List Char} :
    Matches (.alts [.seq (.oneOf ['1', '2', '3', '4', '5', '6', '7', '8', '9']) (.star digitRx),
      .seqs [.lit '0', .oneOf ['X', 'x'], .plus hexDigitRx],
      .seq (.lit '0') (.star octDigitRx)]) w ↔ IntBody w := by
  simp only [Rx.alts, matches_alt, matches_seq, matches_seqs_cons, matches_seqs_nil, matches_lit,
    matches_oneOf, matches_decs, matches_octs, matches_someHex]
  constructor
  · rintro (⟨_, cs, rfl, ⟨c, rfl, hc⟩, h⟩ | ⟨_, _, rfl, rfl, _, _, rfl, ⟨x, rfl, hx⟩, cs, _, rfl, h, rfl⟩
      | ⟨_, cs, rfl, rfl, h⟩)
    · refine .decimal (dec_iff.mp (List.mem_cons_of_mem _ hc)) ?_ h
      rintro rfl; revert hc; decide
    · simp only [List.mem_cons, List.not_mem_nil, or_false] at hx
      simp only [List.append_nil]
      exact .hex hx.symm h
    · exact .octal h
  · intro h
    cases h with
    | @decimal c cs hc h0 h =>
      refine .inl ⟨[c], cs, rfl, ⟨c, rfl, ?_⟩, h⟩
      rcases List.mem_cons.mp (dec_iff.mpr hc) with e | e
      · exact absurd e h0
      · exact e
    | @hex x cs hx h =>
      refine .inr (.inl ⟨['0'], x :: cs, rfl, rfl, [x], cs, rfl, ⟨x, rfl, ?_⟩, cs, [], by simp, h, rfl⟩)
      simpa using hx.symm
    | @octal cs h => exact .inr (.inr ⟨['0'], cs, rfl, rfl, h⟩)

theorem int_iff {w : List Char} : Matches intRx w ↔ IntText w := by
  unfold intRx IntText
  rw [matches_seqs_cons]
  simp only [matches_seqs_cons, matches_seqs_nil, intBody_iff, matches_opt, matches_lit,
    matches_oneOf]
  constructor
  · rintro ⟨sign, _, rfl, hs, body, _, rfl, hb, long, _, rfl, hl, rfl⟩
    refine ⟨sign, body, long, by simp, ?_, hb, ?_⟩
    · simpa [or_comm] using hs
    · rcases hl with ⟨c, rfl, hc⟩ | rfl
      · simp only [List.mem_cons, List.not_mem_nil, or_false] at hc
        rcases hc with rfl | rfl <;> simp
      · simp
  · rintro ⟨sign, body, long, rfl, hs, hb, hl⟩
    refine ⟨sign, body ++ long, by simp, ?_, body, long, rfl, hb, long, [], by simp, ?_, rfl⟩
    · simpa [or_comm] using hs
    · simp only [List.mem_cons, List.not_mem_nil, or_false] at hl
      rcases hl with rfl | rfl | rfl <;> simp

theorem suffix_iff {w : List Char} : Matches (.opt floatSuffixRx) w ↔ Suffix w := by
  unfold floatSuffixRx Suffix floatLetters
  rw [matches_opt, matches_oneOf, or_comm]
  simp only [List.mem_cons, List.not_mem_nil, or_false]
  constructor
  · rintro (h | ⟨c, rfl, rfl | rfl | rfl | rfl⟩) <;> simp [*]
  · rintro (h | ⟨c, rfl, rfl | rfl | rfl | rfl⟩) <;> simp [*]

theorem anySign_iff {w : List Char} : Matches (.opt plusMinusRx) w ↔ w ∈ anySign := by
  unfold plusMinusRx anySign
  rw [matches_opt, matches_oneOf]
  simp only [List.mem_cons, List.not_mem_nil, or_false]
  constructor
  · rintro (⟨c, rfl, rfl | rfl⟩ | rfl) <;> simp
  · rintro (rfl | rfl | rfl) <;> simp

theorem exponent_iff {ls ls' : List Char} (hl : ∀ c, c ∈ ls ↔ c ∈ ls') {w : List Char} :
    Matches (.seqs [.oneOf ls, .opt plusMinusRx, .plus digitRx]) w ↔ Exponent ls' w := by
  unfold Exponent
  simp only [matches_seqs_cons, matches_seqs_nil, matches_oneOf, anySign_iff, matches_someDec, hl]
  constructor
  · rintro ⟨_, _, rfl, ⟨l, rfl, hl⟩, sign, _, rfl, hs, cs, _, rfl, h, rfl⟩
    exact ⟨l, sign, cs, by simp, hl, hs, h⟩
  · rintro ⟨l, sign, cs, rfl, hl, hs, h⟩
    exact ⟨[l], sign ++ cs, rfl, ⟨l, rfl, hl⟩, sign, cs, rfl, hs, cs, [], by simp, h, rfl⟩

theorem decExponent_iff {w : List Char} : Matches decimalExponentRx w ↔ Exponent ['e', 'E'] w :=
  exponent_iff (by intro c; simp [or_comm])

theorem decFloat_iff {w : List Char} : Matches decimalFloatRx w ↔ DecFloat w := by
  unfold decimalFloatRx
  simp only [matches_alt, matches_seq, matches_seqs_cons, matches_seqs_nil, matches_lit,
    matches_decs, matches_someDec, suffix_iff, decExponent_iff, matches_opt (a := decimalExponentRx)]
  have hsuf : ∀ {x}, Matches floatSuffixRx x ↔ ∃ c, x = [c] ∧ c ∈ floatLetters := by
    intro x
    unfold floatSuffixRx floatLetters
    rw [matches_oneOf]
    constructor
    · rintro ⟨c, rfl, hc⟩
      refine ⟨c, rfl, ?_⟩
      simp only [List.mem_cons, List.not_mem_nil, or_false] at hc ⊢
      rcases hc with h | h | h | h <;> simp [h]
    · rintro ⟨c, rfl, hc⟩
      refine ⟨c, rfl, ?_⟩
      simp only [List.mem_cons, List.not_mem_nil, or_false] at hc ⊢
      rcases hc with h | h | h | h <;> simp [h]
  simp only [hsuf]
  constructor
  · rintro (⟨m, _, rfl, hm, e, _, rfl, he, s, _, rfl, hs, rfl⟩ | ⟨a, _, rfl, ha, h⟩)
    · rcases hm with ⟨a, _, rfl, ha, _, _, rfl, rfl, b, _, rfl, hb, rfl⟩ | ⟨_, b, rfl, rfl, hb⟩
      · have := DecFloat.point (a := a) (b := b) (e := e) (s := s) ha.2 hb (.inl ha.1) he.symm hs
        simpa using this
      · have := DecFloat.point (a := []) (b := b) (e := e) (s := s) (by intro c hc; cases hc) hb.2
          (.inr hb.1) he.symm hs
        simpa using this
    · rcases h with ⟨e, s, rfl, he, hs⟩ | ⟨s, rfl, hs⟩
      · have := DecFloat.exponent ha he hs
        simpa using this
      · exact .suffix ha hs
  · intro h
    cases h with
    | @point a b e s ha hb hab he hs =>
      refine .inl ⟨a ++ '.' :: b, e ++ s, by simp, ?_, e, s, rfl, he.symm, s, [], by simp, hs, rfl⟩
      by_cases h0 : a = []
      · subst h0
        exact .inr ⟨['.'], b, rfl, rfl, by simpa using hab, hb⟩
      · exact .inl ⟨a, '.' :: b, rfl, ⟨h0, ha⟩, ['.'], b, rfl, rfl, b, [], by simp, hb, rfl⟩
    | @exponent a e s ha he hs =>
      exact .inr ⟨a, e ++ s, by simp, ha, .inl ⟨e, s, rfl, he, hs⟩⟩
    | @suffix a s ha hs => exact .inr ⟨a, [s], rfl, ha, .inr ⟨s, rfl, hs⟩⟩

theorem hexFloat_iff {w : List Char} : Matches hexFloatRx w ↔ HexFloat w := by
  unfold hexFloatRx
  have hp : ∀ {x : List Char}, Matches (.seqs [.oneOf ['P', 'p'], .opt plusMinusRx, .plus digitRx]) x ↔
      Exponent ['p', 'P'] x := fun {x} => exponent_iff (by intro c; simp [or_comm])
  rw [matches_seqs_cons]
  simp only [matches_seqs_cons (a := .oneOf ['X', 'x']),
    matches_seqs_cons (a := .alt _ _),
    matches_seqs_cons (a := .seqs [.oneOf ['P', 'p'], .opt plusMinusRx, .plus digitRx]),
    matches_seqs_cons (a := .opt floatSuffixRx), matches_seqs_nil, hp, suffix_iff, matches_lit,
    matches_alt, matches_seq, matches_oneOf, matches_someHex]
  simp only [matches_seqs_cons, matches_seqs_nil, matches_hexs, matches_lit, matches_someHex,
    matches_opt]
  constructor
  · rintro ⟨_, _, rfl, rfl, _, _, rfl, ⟨x, rfl, hx⟩, m, _, rfl, hm, e, _, rfl, he, s, _, rfl, hs, rfl⟩
    have hx : x = 'x' ∨ x = 'X' := by simpa [or_comm] using hx
    rcases hm with ⟨a, p, rfl, ha, hp⟩ | ⟨a, _, rfl, ha, _, _, rfl, rfl, b, _, rfl, hb, rfl⟩
    · have := HexFloat.plain (p := p) hx ha (by simpa [or_comm] using hp) he hs
      simpa using this
    · have := HexFloat.point hx ha hb he hs
      simpa using this
  · intro h
    cases h with
    | @plain x a p e s hx ha hp he hs =>
      refine ⟨['0'], x :: (a ++ p ++ e ++ s), by simp, rfl, [x], a ++ p ++ e ++ s, rfl,
        ⟨x, rfl, by simpa [or_comm] using hx⟩, a ++ p, e ++ s, by simp,
        .inl ⟨a, p, rfl, ha, by simpa [or_comm] using hp⟩, e, s, rfl, he, s, [], by simp, hs, rfl⟩
    | @point x a b e s hx ha hb he hs =>
      refine ⟨['0'], x :: (a ++ '.' :: b ++ e ++ s), by simp, rfl, [x], a ++ '.' :: b ++ e ++ s, rfl,
        ⟨x, rfl, by simpa [or_comm] using hx⟩, a ++ '.' :: b, e ++ s, by simp,
        .inr ⟨a, '.' :: b, rfl, ha, ['.'], b, rfl, rfl, b, [], by simp, hb, rfl⟩, e, s, rfl, he, s, [],
        by simp, hs, rfl⟩

theorem float_iff {w : List Char} : Matches floatRx w ↔ FloatText w := by
  unfold floatRx FloatText
  simp only [matches_seq, anySign_iff, Rx.alts, matches_alt, matches_word, decFloat_iff,
    hexFloat_iff]

/-! ## Names -/

theorem namePart_iff {w : List Char} : Matches identPartRx w ↔ NamePart w := by
  unfold identPartRx
  simp only [matches_seq, matches_chr, matches_starChr]
  constructor
  · rintro ⟨_, cs, rfl, ⟨c, rfl, hc⟩, h⟩
    exact .mk hc h
  · rintro ⟨hc, h⟩
    exact ⟨_, _, rfl, ⟨_, rfl, hc⟩, h⟩

theorem quotedPart_iff {w : List Char} : Matches quotedPartRx w ↔ QuotedPart w := by
  unfold quotedPartRx
  simp only [matches_alt, matches_seqs_cons, matches_seqs_nil, matches_lit, namePart_iff]
  constructor
  · rintro (⟨_, _, rfl, rfl, p, _, rfl, hp, _, _, rfl, rfl, rfl⟩ | h)
    · have := QuotedPart.quoted hp
      simpa using this
    · exact .plain h
  · intro h
    cases h with
    | plain h => exact .inr h
    | @quoted p h => exact .inl ⟨['`'], p ++ ['`'], rfl, rfl, p, ['`'], rfl, h, ['`'], [], rfl, rfl, rfl⟩

theorem name_loop {r : Rx} {x : List Char} (h : Matches r x)
    (hr : r = .star (.seq (.oneOf ['-', '.']) quotedPartRx)) :
    ∀ p, QuotedPart p → NameText (p ++ x) := by
  induction h with
  | done => intro p hp; simpa using NameText.one hp
  | @more a v w h1 _ _ ih =>
    injection hr with hr
    subst hr
    intro p hp
    obtain ⟨_, q, rfl, h2, hq⟩ := matches_seq.mp h1
    obtain ⟨s, rfl, hs⟩ := matches_oneOf.mp h2
    have := NameText.more (s := s) hp (by simpa [or_comm] using hs) (ih rfl q (quotedPart_iff.mp hq))
    simpa using this
  | _ => cases hr

theorem name_iff {w : List Char} : Matches identRx w ↔ NameText w := by
  unfold identRx
  rw [matches_seq]
  constructor
  · rintro ⟨p, x, rfl, hp, hx⟩
    exact name_loop hx rfl p (quotedPart_iff.mp hp)
  · intro h
    induction h with
    | @one p hp => exact ⟨p, [], by simp, quotedPart_iff.mpr hp, .done⟩
    | @more p s rest hp hs _ ih =>
      obtain ⟨q, x, rfl, hq, hx⟩ := ih
      refine ⟨p, s :: (q ++ x), rfl, quotedPart_iff.mpr hp, ?_⟩
      have h1 : Matches (.seq (.oneOf ['-', '.']) quotedPartRx) ([s] ++ q) :=
        .seq (matches_oneOf.mpr ⟨s, rfl, by simpa [or_comm] using hs⟩) hq
      have := Matches.more h1 hx
      simpa using this

/-! ## Strings -/

/-- The loop body of `stringRx`. -/
def stringStepRx : Rx :=
  .alts [.noneOf ['\x08', '\t', '\n', '\x0c', '\r', '\\'],
    .seq (.lit '\\') (.alts [.oneOf ['"', '\'', '\\', 'b', 'f', 'n', 'r', 't'],
      .seq octDigitRx (.opt octDigitRx),
      .seqs [.oneOf ['0', '1', '2', '3'], octDigitRx, octDigitRx],
      .seqs [.lit 'u', hexDigitRx, hexDigitRx, hexDigitRx, hexDigitRx]])]

theorem stringStep_iff {w : List Char} :
    Matches stringStepRx w ↔ StringChar w ∨ w = ['"'] := by
  unfold stringStepRx
  simp only [Rx.alts, matches_alt, matches_seq, matches_seqs_cons, matches_seqs_nil, matches_lit,
    matches_oct, matches_hex, matches_opt, matches_oneOf, Rx.noneOf, matches_chr]
  constructor
  · rintro (⟨c, rfl, hc⟩ | ⟨_, _, rfl, rfl, h⟩)
    · by_cases hq : c = '"'
      · exact .inr (by rw [hq])
      · refine .inl (.plain ?_)
        simp only [List.contains_eq_mem, List.mem_cons, List.not_mem_nil, or_false,
          Bool.not_eq_eq_eq_not, Bool.not_true, decide_eq_false_iff_not, not_or] at hc ⊢
        exact ⟨hq, hc.2.2.2.2.2, hc.2.2.1, hc.2.2.2.2.1, hc.2.1, hc.1, hc.2.2.2.1⟩
    · left
      rcases h with ⟨c, rfl, hc⟩ | ⟨_, _, rfl, ⟨a, rfl, ha⟩, ⟨b, rfl, hb⟩ | rfl⟩ |
        ⟨_, _, rfl, ⟨a, rfl, ha⟩, _, _, rfl, ⟨b, rfl, hb⟩, _, _, rfl, ⟨c, rfl, hc⟩, rfl⟩ |
        ⟨_, _, rfl, rfl, _, _, rfl, ⟨a, rfl, ha⟩, _, _, rfl, ⟨b, rfl, hb⟩, _, _, rfl, ⟨c, rfl, hc⟩,
          _, _, rfl, ⟨d, rfl, hd⟩, rfl⟩
      · exact .named hc
      · exact .oct2 ha hb
      · exact .oct1 ha
      · exact .oct3 ha hb hc
      · exact .unicode ha hb hc hd
  · rintro (h | rfl)
    · cases h with
      | @plain c hc =>
        refine .inl ⟨c, rfl, ?_⟩
        simp only [List.contains_eq_mem, List.mem_cons, List.not_mem_nil, or_false,
          Bool.not_eq_eq_eq_not, Bool.not_true, decide_eq_false_iff_not, not_or] at hc ⊢
        exact ⟨hc.2.2.2.2.2.1, hc.2.2.2.2.1, hc.2.2.1, hc.2.2.2.2.2.2, hc.2.2.2.1, hc.2.1⟩
      | @named c hc => exact .inr ⟨['\\'], [c], rfl, rfl, .inl ⟨c, rfl, hc⟩⟩
      | @oct1 a ha => exact .inr ⟨['\\'], [a], rfl, rfl, .inr (.inl ⟨[a], [], rfl, ⟨a, rfl, ha⟩, .inr rfl⟩)⟩
      | @oct2 a b ha hb =>
        exact .inr ⟨['\\'], [a, b], rfl, rfl, .inr (.inl ⟨[a], [b], rfl, ⟨a, rfl, ha⟩, .inl ⟨b, rfl, hb⟩⟩)⟩
      | @oct3 a b c ha hb hc =>
        exact .inr ⟨['\\'], [a, b, c], rfl, rfl, .inr (.inr (.inl ⟨[a], [b, c], rfl, ⟨a, rfl, ha⟩, [b],
          [c], rfl, ⟨b, rfl, hb⟩, [c], [], rfl, ⟨c, rfl, hc⟩, rfl⟩))⟩
      | @unicode a b c d ha hb hc hd =>
        exact .inr ⟨['\\'], ['u', a, b, c, d], rfl, rfl, .inr (.inr (.inr ⟨['u'], [a, b, c, d], rfl,
          rfl, [a], [b, c, d], rfl, ⟨a, rfl, ha⟩, [b], [c, d], rfl, ⟨b, rfl, hb⟩, [c], [d], rfl,
          ⟨c, rfl, hc⟩, [d], [], rfl, ⟨d, rfl, hd⟩, rfl⟩))⟩
    · exact .inl ⟨'"', rfl, by decide⟩

theorem stringRx_iff {w : List Char} :
    Matches stringRx w ↔ ∃ e, w = '"' :: e ++ ['"'] ∧ Matches (.star stringStepRx) e := by
  unfold stringRx
  rw [matches_seqs_cons]
  constructor
  · rintro ⟨_, _, rfl, h1, h⟩
    obtain ⟨e, _, rfl, he, h2⟩ := matches_seqs_cons.mp h
    obtain ⟨_, _, rfl, h3, h4⟩ := matches_seqs_cons.mp h2
    rw [matches_lit] at h1 h3
    rw [matches_seqs_nil] at h4
    subst h1 h3 h4
    exact ⟨e, by simp, he⟩
  · rintro ⟨e, rfl, he⟩
    exact ⟨['"'], e ++ ['"'], rfl, matches_lit.mpr rfl, matches_seqs_cons.mpr ⟨e, ['"'], rfl, he,
      matches_seqs_cons.mpr ⟨['"'], [], rfl, matches_lit.mpr rfl, matches_seqs_nil.mpr rfl⟩⟩⟩

theorem star_append {a : Rx} {r : Rx} {v : List Char} (hv : Matches r v) (hr : r = .star a)
    {w : List Char} (hw : Matches (.star a) w) : Matches (.star a) (v ++ w) := by
  induction hv with
  | done => simpa using hw
  | more h1 _ _ ih =>
    injection hr with hr
    subst hr
    rw [List.append_assoc]
    exact .more h1 (ih rfl)
  | _ => cases hr

/-- Whether a character is escaped after reading a text. -/
def escapedAfter : Bool → List Char → Bool
  | e, [] => e
  | true, _ :: cs => escapedAfter false cs
  | false, c :: cs => escapedAfter (c == '\\') cs

theorem escapedAfter_append (v w : List Char) : ∀ e,
    escapedAfter e (v ++ w) = escapedAfter (escapedAfter e v) w := by
  induction v with
  | nil => intro e; cases e <;> cases w <;> rfl
  | cons c v ih => intro e; cases e <;> exact ih _

theorem oct_plain {c : Char} (h : Oct c) : (c == '\\') = false ∧ c ≠ '"' := by
  have : ∀ c ∈ ['0', '1', '2', '3', '4', '5', '6', '7'], (c == '\\') = false ∧ c ≠ '"' := by decide
  exact this c (oct_iff.mpr h)

theorem hex_plain {c : Char} (h : Hex c) : (c == '\\') = false ∧ c ≠ '"' := by
  have : ∀ c ∈ ['0', '1', '2', '3', '4', '5', '6', '7', '8', '9', 'A', 'B', 'C', 'D', 'E', 'F',
      'a', 'b', 'c', 'd', 'e', 'f'], (c == '\\') = false ∧ c ≠ '"' := by decide
  exact this c (hex_iff.mpr h)

/-- A text after which nothing is escaped and in which every quotation mark is. -/
def Sealed (v : List Char) : Prop :=
  escapedAfter false v = false ∧ ∀ p s, v = p ++ '"' :: s → escapedAfter false p = true

theorem stringChar_sealed {v : List Char} (h : StringChar v) : Sealed v := by
  have two : ∀ {a : Char} {tl : List Char}, (∀ c ∈ tl, (c == '\\') = false ∧ c ≠ '"') →
      Sealed ('\\' :: a :: tl) := by
    intro a tl htl
    have h0 : ∀ tl : List Char, (∀ c ∈ tl, (c == '\\') = false ∧ c ≠ '"') →
        escapedAfter false tl = false := by
      intro tl
      induction tl with
      | nil => intro _; rfl
      | cons c tl ih =>
        intro h
        show escapedAfter (c == '\\') tl = false
        rw [(h c (by simp)).1]
        exact ih fun d hd => h d (by simp [hd])
    refine ⟨h0 tl htl, fun p s e => ?_⟩
    match p, e with
    | [], e => injection e with e _; exact absurd e (by decide)
    | [_], e => injection e with e _; subst e; rfl
    | _ :: _ :: p, e =>
      injection e with _ e
      injection e with _ e
      exact absurd rfl (htl '"' (by rw [e]; simp)).2
  cases h with
  | @plain c hc =>
    have hb : (c == '\\') = false := by
      simp only [List.mem_cons, not_or] at hc
      simpa using hc.2.1
    refine ⟨hb, fun p s e => ?_⟩
    cases p with
    | nil =>
      injection e with e _
      subst e
      exact absurd hc (by decide)
    | cons a p => injection e with _ e; exact absurd e (by simp)
  | named _ => exact two (by simp)
  | oct1 _ => exact two (by simp)
  | oct2 ha hb => exact two (by intro c hc; simp only [List.mem_singleton] at hc; subst hc; exact oct_plain hb)
  | oct3 _ hb hc =>
    refine two fun c hm => ?_
    simp only [List.mem_cons, List.not_mem_nil, or_false] at hm
    rcases hm with rfl | rfl
    · exact oct_plain hb
    · exact oct_plain hc
  | unicode ha hb hc hd =>
    refine two fun c hm => ?_
    simp only [List.mem_cons, List.not_mem_nil, or_false] at hm
    rcases hm with rfl | rfl | rfl | rfl
    · exact hex_plain ha
    · exact hex_plain hb
    · exact hex_plain hc
    · exact hex_plain hd

theorem sealed_append {v w : List Char} (hv : Sealed v) (hw : Sealed w) : Sealed (v ++ w) := by
  refine ⟨by rw [escapedAfter_append, hv.1]; exact hw.1, fun p s e => ?_⟩
  rcases List.append_eq_append_iff.mp e with ⟨x, rfl, e'⟩ | ⟨x, rfl, e'⟩
  · rw [escapedAfter_append, hv.1]
    exact hw.2 _ _ e'
  · cases x with
    | nil =>
      simp only [List.append_nil] at hv ⊢
      rw [hv.1]
      exact absurd (hw.2 [] s (by simpa using e'.symm)) (by decide)
    | cons c x =>
      injection e' with e1 e2
      subst e1
      exact hv.2 p x rfl

theorem stringChars_sealed {v : List Char} (h : StringChars v) : Sealed v := by
  induction h with
  | nil => exact ⟨rfl, fun p s e => absurd e (by simp)⟩
  | cons h _ ih => exact sealed_append (stringChar_sealed h) ih

theorem steps_not_escaped {r : Rx} {v : List Char} (h : Matches r v) (hr : r = .star stringStepRx) :
    escapedAfter false v = false := by
  induction h with
  | done => rfl
  | more h1 _ _ ih =>
    injection hr with hr
    subst hr
    rw [escapedAfter_append]
    rcases stringStep_iff.mp h1 with h | rfl
    · rw [(stringChar_sealed h).1]; exact ih rfl
    · exact ih rfl
  | _ => cases hr

theorem stringChars_steps {v : List Char} (h : StringChars v) : Matches (.star stringStepRx) v := by
  induction h with
  | nil => exact .done
  | cons h _ ih => exact .more (stringStep_iff.mpr (.inl h)) ih

theorem steps_chars {r : Rx} {v : List Char} (h : Matches r v) (hr : r = .star stringStepRx) :
    ∀ pre, Matches (.star stringStepRx) pre →
      (∀ u, u <+: '"' :: (pre ++ v) ++ ['"'] → u ≠ '"' :: (pre ++ v) ++ ['"'] → ¬ Matches stringRx u) →
      StringChars v := by
  induction h with
  | done => intro _ _ _; exact .nil
  | @more a x w h1 _ _ ih =>
    injection hr with hr
    subst hr
    intro pre hpre hmin
    have hx := stringStep_iff.mp h1
    rcases hx with hx | rfl
    · refine .cons hx (ih rfl (pre ++ x) (star_append hpre rfl ?_) ?_)
      · have := Matches.more h1 (Matches.done (a := stringStepRx)); simpa using this
      · simpa [List.append_assoc] using hmin
    · refine absurd (stringRx_iff.mpr ⟨pre, rfl, hpre⟩) (hmin _ ⟨w ++ ['"'], by simp⟩ ?_)
      intro e
      have := congrArg List.length e
      simp at this
  | _ => cases hr

theorem string_iff {w : List Char} :
    RuleMatches stringRule w ↔ ∃ cs, StringChars cs ∧ w = '"' :: cs ++ ['"'] := by
  constructor
  · rintro ⟨hm, hmin⟩
    obtain ⟨e, rfl, he⟩ := stringRx_iff.mp hm
    refine ⟨e, steps_chars he rfl [] .done fun u hu hne => ?_, rfl⟩
    exact hmin rfl u hu hne
  · rintro ⟨cs, hcs, rfl⟩
    refine ⟨stringRx_iff.mpr ⟨cs, rfl, stringChars_steps hcs⟩, fun _ v hv hne hm => ?_⟩
    obtain ⟨e, rfl, he⟩ := stringRx_iff.mp hm
    rcases List.prefix_concat_iff.mp hv with h | ⟨s, h⟩
    · exact hne h
    · simp only [List.cons_append, List.append_assoc, List.nil_append] at h
      injection h with _ h
      have := (stringChars_sealed hcs).2 e s h.symm
      rw [steps_not_escaped he rfl] at this
      cases this

/-! ## Comments -/

theorem endsOnlyThere_iff {pre x : List Char} :
    (∀ v, v <+: pre ++ x ++ ['*', '/'] → v ≠ pre ++ x ++ ['*', '/'] → ¬ ∃ y, v = pre ++ y ++ ['*', '/']) ↔
      EndsOnlyThere x := by
  constructor
  · rintro h ⟨a, b, e⟩
    refine h (pre ++ a ++ ['*', '/']) ⟨b ++ ['/'], ?_⟩ ?_ ⟨a, rfl⟩
    · have := congrArg (fun l => pre ++ l ++ ['/']) e
      simpa using this.symm
    · intro h'
      have h1 := congrArg List.length e
      have h2 := congrArg List.length h'
      simp at h1 h2
      omega
  · rintro h v hv hne ⟨y, rfl⟩
    rw [show pre ++ x ++ ['*', '/'] = (pre ++ x ++ ['*']) ++ ['/'] by simp] at hv hne
    rcases List.prefix_concat_iff.mp hv with h' | ⟨s, h'⟩
    · exact hne h'
    · refine h ⟨y, s, ?_⟩
      have : pre ++ (y ++ '*' :: '/' :: s) = pre ++ (x ++ ['*']) := by simpa using h'
      exact (List.append_cancel_left this).symm

theorem doc_iff {w : List Char} : RuleMatches docRule w ↔
    ∃ x, EndsOnlyThere x ∧ w = '/' :: '*' :: '*' :: x ++ ['*', '/'] := by
  constructor
  · rintro ⟨hm, hmin⟩
    obtain ⟨x, rfl⟩ := doc_matches.mp hm
    refine ⟨x, (endsOnlyThere_iff (pre := ['/', '*', '*'])).mp fun v hv hne h => ?_, rfl⟩
    exact hmin rfl v hv hne (doc_matches.mpr h)
  · rintro ⟨x, hx, rfl⟩
    refine ⟨doc_matches.mpr ⟨x, rfl⟩, fun _ v hv hne hm => ?_⟩
    exact (endsOnlyThere_iff (pre := ['/', '*', '*'])).mpr hx v hv hne (doc_matches.mp hm)

theorem block_iff {w : List Char} : RuleMatches blockRule w ↔
    ∃ c x, c ≠ '*' ∧ EndsOnlyThere x ∧ w = '/' :: '*' :: c :: x ++ ['*', '/'] := by
  constructor
  · rintro ⟨hm, hmin⟩
    obtain ⟨c, x, rfl, hc⟩ := block_matches.mp hm
    refine ⟨c, x, hc, (endsOnlyThere_iff (pre := ['/', '*', c])).mp fun v hv hne h => ?_, rfl⟩
    obtain ⟨y, h⟩ := h
    exact hmin rfl v hv hne (block_matches.mpr ⟨c, y, h, hc⟩)
  · rintro ⟨c, x, hc, hx, rfl⟩
    refine ⟨block_matches.mpr ⟨c, x, rfl, hc⟩, fun _ v hv hne hm => ?_⟩
    obtain ⟨c', y, rfl, _⟩ := block_matches.mp hm
    have : c' = c := by
      obtain ⟨s, h⟩ := hv
      simp only [List.cons_append] at h
      injection h with _ h
      injection h with _ h
      injection h
    subst this
    exact (endsOnlyThere_iff (pre := ['/', '*', c'])).mpr hx _ hv hne ⟨y, rfl⟩

theorem line_iff {w : List Char} : RuleMatches lineRule w ↔
    ∃ x e, '\n' ∉ x ∧ '\r' ∉ x ∧ e ∈ lineEnds ∧ w = '/' :: '/' :: x ++ e := by
  constructor
  · rintro ⟨hm, _⟩
    obtain ⟨x, e, rfl, hx, he⟩ := line_matches.mp hm
    refine ⟨x, e, fun h => (hx _ h).1 rfl, fun h => (hx _ h).2 rfl, ?_, rfl⟩
    rcases he with rfl | rfl | rfl <;> simp [lineEnds]
  · rintro ⟨x, e, hn, hr, he, rfl⟩
    refine ⟨line_matches.mpr ⟨x, e, rfl, fun c hc => ⟨?_, ?_⟩, ?_⟩, fun h => absurd h (by decide)⟩
    · rintro rfl; exact hn hc
    · rintro rfl; exact hr hc
    · simpa [lineEnds] using he

/-! ## All rules -/

theorem eager {r : LexRule} (h : r.isLazy = false) {w : List Char} :
    RuleMatches r w ↔ Matches r.rx w :=
  ⟨fun hm => hm.1, fun hm => ⟨hm, fun hl => by rw [h] at hl; cases hl⟩⟩

/-- A rule matches exactly the texts of tokens of its kind. -/
theorem rule_text {r : LexRule} (hr : r ∈ lexRules) {w : List Char} :
    RuleMatches r w ↔ TokenText r.kind w := by
  unfold lexRules at hr
  simp only [List.mem_append, List.mem_map] at hr
  rcases hr with ((h | ⟨s, hs, rfl⟩) | ⟨c, hc, rfl⟩) | h
  · simp only [spaceRules, List.mem_cons, List.not_mem_nil, or_false] at h
    rcases h with rfl | rfl | rfl | rfl | rfl | rfl
    · rw [eager rfl, matches_lit]
      exact ⟨fun h => h ▸ .endMark, fun h => by cases h; rfl⟩
    · refine doc_iff.trans ⟨?_, fun h => ?_⟩
      · rintro ⟨x, hx, rfl⟩; exact .doc hx
      · cases h with | doc hx => exact ⟨_, hx, rfl⟩
    · rw [eager rfl]
      exact empty_matches.trans ⟨fun h => h ▸ .empty, fun h => by cases h; rfl⟩
    · refine block_iff.trans ⟨?_, fun h => ?_⟩
      · rintro ⟨c, x, hc, hx, rfl⟩; exact .block hc hx
      · cases h with | block hc hx => exact ⟨_, _, hc, hx, rfl⟩
    · refine line_iff.trans ⟨?_, fun h => ?_⟩
      · rintro ⟨x, e, h1, h2, h3, rfl⟩; exact .line h1 h2 h3
      · cases h with | line h1 h2 h3 => exact ⟨_, _, h1, h2, h3, rfl⟩
    · rw [eager rfl, matches_oneOf]
      constructor
      · rintro ⟨c, rfl, hc⟩
        have : ∀ c ∈ ['\t', '\n', '\x0c', '\r', ' '], c ∈ spaces := by decide
        exact .space (this c hc)
      · intro h
        cases h with
        | @space c hc =>
          have : ∀ c ∈ spaces, c ∈ ['\t', '\n', '\x0c', '\r', ' '] := by decide
          exact ⟨c, rfl, this c hc⟩
  · rw [eager rfl, matches_word]
    have : ∀ s ∈ lexKeywords, s ∈ reserved := by decide
    exact ⟨fun h => h ▸ .keyword (this s hs), fun h => by cases h; rfl⟩
  · rw [eager rfl, matches_lit]
    have : ∀ c ∈ lexSigns, c ∈ signs := by decide
    exact ⟨fun h => h ▸ .sign (this c hc), fun h => by cases h; rfl⟩
  · simp only [List.mem_cons, List.not_mem_nil, or_false] at h
    rcases h with rfl | rfl | rfl | rfl
    · refine string_iff.trans ⟨?_, fun h => ?_⟩
      · rintro ⟨x, hx, rfl⟩; exact .string hx
      · cases h with | string hx => exact ⟨_, hx, rfl⟩
    · rw [eager rfl, int_iff]
      exact ⟨.int, fun h => by cases h with | int h => exact h⟩
    · rw [eager rfl, float_iff]
      exact ⟨.float, fun h => by cases h with | float h => exact h⟩
    · rw [eager rfl, name_iff]
      exact ⟨.name, fun h => by cases h with | name h => exact h⟩

/-- Every kind of token has a rule. -/
theorem text_rule {k : Kind} {w : List Char} (h : TokenText k w) : ∃ r ∈ lexRules, r.kind = k := by
  have hk : k ∈ lexRules.map (·.kind) := by
    cases h with
    | @keyword s hs =>
      have : ∀ s ∈ reserved, Kind.kw s ∈ lexRules.map (·.kind) := by decide
      exact this s hs
    | @sign c hc =>
      have : ∀ c ∈ signs, Kind.sym c ∈ lexRules.map (·.kind) := by decide
      exact this c hc
    | _ => decide
  obtain ⟨r, hr, rfl⟩ := List.mem_map.mp hk
  exact ⟨r, hr, rfl⟩

/-! ## Texts of several kinds -/

/-- The kinds by the first character of their texts. -/
def Kind.group : Kind → Nat
  | .doc | .emptyComment | .multiLineComment | .singleLineComment => 0
  | .string => 1
  | .ws => 2
  | .sub => 3
  | .sym _ => 4
  | .int => 5
  | .float => 6
  | .kw _ => 7
  | .ident => 8

/-- The characters with which integers begin. -/
def intStarts : List Char := ['-', '0', '1', '2', '3', '4', '5', '6', '7', '8', '9']
/-- The characters with which floating point numbers begin, except for `NaN` and `Infinity`. -/
def floatStarts : List Char := ['-', '+', '.', '0', '1', '2', '3', '4', '5', '6', '7', '8', '9']

theorem dec_start {c : Char} (h : Dec c) : c ∈ intStarts := List.mem_cons_of_mem _ (dec_iff.mpr h)

theorem intText_start {w : List Char} (h : IntText w) : ∃ c cs, w = c :: cs ∧ c ∈ intStarts := by
  obtain ⟨sign, body, long, rfl, hs, hb, _⟩ := h
  simp only [List.mem_cons, List.not_mem_nil, or_false] at hs
  rcases hs with rfl | rfl
  · cases hb with
    | decimal hc => exact ⟨_, _, rfl, dec_start hc⟩
    | hex => exact ⟨_, _, rfl, by decide⟩
    | octal => exact ⟨_, _, rfl, by decide⟩
  · exact ⟨_, _, rfl, by decide⟩

theorem decs_start {a : List Char} (h : Some' Dec a) : ∃ c cs, a = c :: cs ∧ c ∈ floatStarts := by
  cases a with
  | nil => exact absurd rfl h.1
  | cons c cs =>
    have := dec_iff.mpr (h.2 c (by simp))
    refine ⟨c, cs, rfl, ?_⟩
    have hl : ∀ c ∈ ['0', '1', '2', '3', '4', '5', '6', '7', '8', '9'], c ∈ floatStarts := by decide
    exact hl c this

theorem decFloat_start {w : List Char} (h : DecFloat w) : ∃ c cs, w = c :: cs ∧ c ∈ floatStarts := by
  cases h with
  | @point a b e s ha hb hab he hs =>
    cases a with
    | nil => exact ⟨_, _, rfl, by decide⟩
    | cons c cs =>
      obtain ⟨_, _, e, hc⟩ := decs_start (a := c :: cs) ⟨by simp, ha⟩
      injection e with e1 e2
      subst e1
      exact ⟨_, _, rfl, hc⟩
  | exponent ha =>
    obtain ⟨_, _, rfl, hc⟩ := decs_start ha
    exact ⟨_, _, rfl, hc⟩
  | suffix ha =>
    obtain ⟨_, _, rfl, hc⟩ := decs_start ha
    exact ⟨_, _, rfl, hc⟩

theorem hexFloat_start {w : List Char} (h : HexFloat w) : ∃ c cs, w = c :: cs ∧ c ∈ floatStarts := by
  cases h with
  | plain => exact ⟨_, _, rfl, by decide⟩
  | point => exact ⟨_, _, rfl, by decide⟩

theorem floatText_start {w : List Char} (h : FloatText w) :
    w = "NaN".toList ∨ w = "Infinity".toList ∨ ∃ c cs, w = c :: cs ∧ c ∈ floatStarts := by
  obtain ⟨sign, body, rfl, hs, hb⟩ := h
  simp only [anySign, List.mem_cons, List.not_mem_nil, or_false] at hs
  rcases hs with rfl | rfl | rfl
  · rcases hb with rfl | rfl | h | h
    · exact .inl rfl
    · exact .inr (.inl rfl)
    · exact .inr (.inr (decFloat_start h))
    · exact .inr (.inr (hexFloat_start h))
  · exact .inr (.inr ⟨_, _, rfl, by decide⟩)
  · exact .inr (.inr ⟨_, _, rfl, by decide⟩)

theorem nameText_start {w : List Char} (h : NameText w) :
    ∃ c cs, w = c :: cs ∧ (isIdentStart c = true ∨ c = '`') := by
  have hq : ∀ {p}, QuotedPart p → ∃ c cs, p = c :: cs ∧ (isIdentStart c = true ∨ c = '`') := by
    intro p hp
    cases hp with
    | plain h => cases h with | mk hc => exact ⟨_, _, rfl, .inl hc⟩
    | quoted => exact ⟨_, _, rfl, .inr rfl⟩
  cases h with
  | one hp => exact hq hp
  | more hp =>
    obtain ⟨c, cs, rfl, hc⟩ := hq hp
    exact ⟨_, _, rfl, hc⟩

/-- No name begins with one of these. -/
theorem no_name_start : ∀ c ∈ '/' :: '"' :: '\x1a' :: spaces ++ signs ++ intStarts ++ floatStarts,
    isIdentStart c = false ∧ c ≠ '`' := by decide +kernel

/-- The first characters of each group of kinds. -/
def groupStart : Nat → Char → Prop
  | 0, c => c = '/'
  | 1, c => c = '"'
  | 2, c => c ∈ spaces
  | 3, c => c = '\x1a'
  | 4, c => c ∈ signs
  | 5, c => c ∈ intStarts
  | 6, c => c ∈ floatStarts ∨ c = 'N' ∨ c = 'I'
  | 7, c => ∃ s ∈ reserved, ∃ cs, s.toList = c :: cs
  | _, c => isIdentStart c = true ∨ c = '`'

theorem text_start {k : Kind} {w : List Char} (h : TokenText k w) :
    ∃ c cs, w = c :: cs ∧ groupStart k.group c := by
  cases h with
  | @keyword s hs =>
    have : ∀ s ∈ reserved, s.toList ≠ [] := by decide
    cases e : s.toList with
    | nil => exact absurd e (this s hs)
    | cons c cs => exact ⟨c, cs, rfl, s, hs, cs, e⟩
  | sign hc => exact ⟨_, _, rfl, hc⟩
  | name h => exact nameText_start h
  | int h => exact intText_start h
  | float h =>
    rcases floatText_start h with rfl | rfl | ⟨c, cs, rfl, hc⟩
    · exact ⟨'N', _, rfl, .inr (.inl rfl)⟩
    · exact ⟨'I', _, rfl, .inr (.inr rfl)⟩
    · exact ⟨c, cs, rfl, .inl hc⟩
  | string _ => exact ⟨_, _, rfl, rfl⟩
  | space hc => exact ⟨_, _, rfl, hc⟩
  | doc _ => exact ⟨_, _, rfl, rfl⟩
  | empty => exact ⟨_, _, rfl, rfl⟩
  | block _ _ => exact ⟨_, _, rfl, rfl⟩
  | line _ _ _ => exact ⟨_, _, rfl, rfl⟩
  | endMark => exact ⟨_, _, rfl, rfl⟩

theorem text_ne_nil {k : Kind} {w : List Char} (h : TokenText k w) : w ≠ [] := by
  obtain ⟨c, cs, rfl, _⟩ := text_start h
  simp

/-- Characters of decimal and octal integers. -/
theorem int_chars {w : List Char} (h : IntText w) : (∀ c ∈ w, c ∈ 'l' :: 'L' :: intStarts) ∨
    ((∃ x ∈ w, x = 'x' ∨ x = 'X') ∧
      ∀ c ∈ w, Hex c ∨ c ∈ ['l', 'L', '-', 'x', 'X']) := by
  obtain ⟨sign, body, long, rfl, hs, hb, hl⟩ := h
  have hs' : ∀ c ∈ sign, c = '-' := by
    simp only [List.mem_cons, List.not_mem_nil, or_false] at hs
    rcases hs with rfl | rfl <;> simp
  have hl' : ∀ c ∈ long, c = 'l' ∨ c = 'L' := by
    simp only [List.mem_cons, List.not_mem_nil, or_false] at hl
    rcases hl with rfl | rfl | rfl <;> simp
  have key : (∀ c ∈ body, c ∈ intStarts) → ∀ c ∈ sign ++ body ++ long, c ∈ 'l' :: 'L' :: intStarts := by
    intro hbody c hc
    rcases List.mem_append.mp hc with hc | hc
    · rcases List.mem_append.mp hc with hc | hc
      · rw [hs' c hc]; decide
      · exact List.mem_cons_of_mem _ (List.mem_cons_of_mem _ (hbody c hc))
    · rcases hl' c hc with rfl | rfl <;> decide
  cases hb with
  | @decimal c cs hc _ hcs =>
    refine .inl (key fun d hd => ?_)
    rcases List.mem_cons.mp hd with rfl | hd
    · exact dec_start hc
    · exact dec_start (hcs d hd)
  | @octal cs hcs =>
    refine .inl (key fun d hd => ?_)
    rcases List.mem_cons.mp hd with rfl | hd
    · decide
    · have := hcs d hd
      exact dec_start ⟨this.1, by have := this.2; omega⟩
  | @hex x cs hx hcs =>
    refine .inr ⟨⟨x, by simp, hx⟩, fun c hc => ?_⟩
    rcases List.mem_append.mp hc with hc | hc
    · rcases List.mem_append.mp hc with hc | hc
      · rw [hs' c hc]; exact .inr (by decide)
      · rcases List.mem_cons.mp hc with rfl | hc
        · exact .inl (by decide)
        · rcases List.mem_cons.mp hc with rfl | hc
          · rcases hx with rfl | rfl <;> exact .inr (by decide)
          · exact .inl (hcs.2 c hc)
    · rcases hl' c hc with rfl | rfl <;> exact .inr (by decide)

/-- The characters of decimal floating point numbers. -/
def decFloatChars : List Char := ['e', 'E', 'f', 'F', 'd', 'D'] ++ floatStarts

theorem exponent_chars {ls w : List Char} (h : Exponent ls w) :
    (∃ l ∈ w, l ∈ ls) ∧ ∀ c ∈ w, c ∈ ls ∨ c ∈ floatStarts := by
  obtain ⟨l, sign, cs, rfl, hl, hs, hc⟩ := h
  refine ⟨⟨l, by simp, hl⟩, fun c hm => ?_⟩
  simp only [List.cons_append] at hm
  rcases List.mem_cons.mp hm with rfl | hm
  · exact .inl hl
  · rcases List.mem_append.mp hm with hm | hm
    · simp only [anySign, List.mem_cons, List.not_mem_nil, or_false] at hs
      rcases hs with rfl | rfl | rfl
      · cases hm
      · simp only [List.mem_singleton] at hm; subst hm; exact .inr (by decide)
      · simp only [List.mem_singleton] at hm; subst hm; exact .inr (by decide)
    · have := dec_iff.mpr (hc.2 c hm)
      have hl : ∀ c ∈ ['0', '1', '2', '3', '4', '5', '6', '7', '8', '9'], c ∈ floatStarts := by decide
      exact .inr (hl c this)

theorem suffix_chars {w : List Char} (h : Suffix w) : ∀ c ∈ w, c ∈ decFloatChars := by
  rcases h with rfl | ⟨s, rfl, hs⟩
  · intro c hc; cases hc
  · intro c hc
    simp only [List.mem_singleton] at hc
    subst hc
    have : ∀ c ∈ floatLetters, c ∈ decFloatChars := by decide
    exact this _ hs

theorem decs_chars {w : List Char} (h : All Dec w) : ∀ c ∈ w, c ∈ decFloatChars := by
  intro c hc
  have hl : ∀ c ∈ ['0', '1', '2', '3', '4', '5', '6', '7', '8', '9'], c ∈ decFloatChars := by decide
  exact hl c (dec_iff.mpr (h c hc))

theorem decExponent_chars {w : List Char} (h : w = [] ∨ Exponent ['e', 'E'] w) :
    ∀ c ∈ w, c ∈ decFloatChars := by
  rcases h with rfl | h
  · intro c hc; cases hc
  · intro c hc
    rcases (exponent_chars h).2 c hc with h | h
    · have : ∀ c ∈ ['e', 'E'], c ∈ decFloatChars := by decide
      exact this c h
    · exact List.mem_append_right _ h

theorem decFloat_chars {w : List Char} (h : DecFloat w) :
    (∀ c ∈ w, c ∈ decFloatChars) ∧ ∃ c ∈ w, c ∈ ['.', 'e', 'E', 'f', 'F', 'd', 'D'] := by
  cases h with
  | @point a b e s ha hb _ he hs =>
    refine ⟨fun c hc => ?_, '.', by simp, by decide⟩
    simp only [List.mem_append, List.mem_cons] at hc
    rcases hc with ((hc | rfl | hc) | hc) | hc
    · exact decs_chars ha c hc
    · decide
    · exact decs_chars hb c hc
    · exact decExponent_chars he c hc
    · exact suffix_chars hs c hc
  | @exponent a e s ha he hs =>
    refine ⟨fun c hc => ?_, ?_⟩
    · simp only [List.mem_append] at hc
      rcases hc with (hc | hc) | hc
      · exact decs_chars ha.2 c hc
      · exact decExponent_chars (.inr he) c hc
      · exact suffix_chars hs c hc
    · obtain ⟨l, hm, hl⟩ := (exponent_chars he).1
      refine ⟨l, by simp [hm], ?_⟩
      have : ∀ c ∈ ['e', 'E'], c ∈ ['.', 'e', 'E', 'f', 'F', 'd', 'D'] := by decide
      exact this l hl
  | @suffix a s ha hs =>
    refine ⟨fun c hc => ?_, s, by simp, ?_⟩
    · simp only [List.mem_append, List.mem_singleton] at hc
      rcases hc with hc | rfl
      · exact decs_chars ha.2 c hc
      · exact suffix_chars (.inr ⟨_, rfl, hs⟩) c (by simp)
    · have : ∀ c ∈ floatLetters, c ∈ ['.', 'e', 'E', 'f', 'F', 'd', 'D'] := by decide
      exact this s hs

theorem hexFloat_chars {w : List Char} (h : HexFloat w) : ∃ c ∈ w, c = 'p' ∨ c = 'P' := by
  cases h with
  | plain _ _ _ he _ =>
    obtain ⟨l, hm, hl⟩ := (exponent_chars he).1
    exact ⟨l, by simp [hm], by simpa using hl⟩
  | point _ _ _ he _ =>
    obtain ⟨l, hm, hl⟩ := (exponent_chars he).1
    exact ⟨l, by simp [hm], by simpa using hl⟩

theorem int_not_float {w : List Char} (hi : IntText w) (hf : FloatText w) : False := by
  obtain ⟨sign, body, rfl, hs, hb⟩ := hf
  have hsub : ∀ c ∈ body, c ∈ sign ++ body := fun c hc => by simp [hc]
  have odd : ∀ c, c ∈ body → ¬ (c ∈ 'l' :: 'L' :: intStarts) →
      ¬ (Hex c ∨ c ∈ ['l', 'L', '-', 'x', 'X']) → False := by
    intro c hc h1 h2
    rcases int_chars hi with h | ⟨_, h⟩
    · exact h1 (h c (hsub c hc))
    · exact h2 (h c (hsub c hc))
  rcases hb with rfl | rfl | hb | hb
  · exact odd 'N' (by decide) (by decide) (by decide)
  · exact odd 'I' (by decide) (by decide) (by decide)
  · obtain ⟨hall, c, hc, hcl⟩ := decFloat_chars hb
    rcases int_chars hi with h | ⟨⟨x, hx, hx'⟩, h⟩
    · have : ∀ c ∈ ['.', 'e', 'E', 'f', 'F', 'd', 'D'], ¬ c ∈ 'l' :: 'L' :: intStarts := by decide
      exact this c hcl (h c (hsub c hc))
    · rcases List.mem_append.mp hx with hx | hx
      · have : ∀ s ∈ anySign, 'x' ∉ s ∧ 'X' ∉ s := by decide
        rcases hx' with rfl | rfl
        · exact (this sign hs).1 hx
        · exact (this sign hs).2 hx
      · have := hall x hx
        rcases hx' with rfl | rfl
        · exact absurd this (by decide)
        · exact absurd this (by decide)
  · obtain ⟨c, hc, rfl | rfl⟩ := hexFloat_chars hb
    · exact odd _ hc (by decide) (by decide)
    · exact odd _ hc (by decide) (by decide)

theorem sign_not_int {c : Char} (hc : c ∈ signs) (h : IntText [c]) : False := by
  obtain ⟨d, cs, e, hd⟩ := intText_start h
  injection e with e _
  subst e
  have : ∀ c ∈ signs, c ∈ intStarts → c = '-' := by decide
  have := this c hc hd
  subst this
  obtain ⟨sign, body, long, e, hs, hb, hl⟩ := h
  simp only [List.mem_cons, List.not_mem_nil, or_false] at hs
  rcases hs with rfl | rfl
  · cases hb with
    | decimal hc => injection e with e; subst e; exact absurd hc (by decide)
    | hex => injection e with e; exact absurd e (by decide)
    | octal => injection e with e; exact absurd e (by decide)
  · injection e with _ e
    have : body = [] := by
      cases body with
      | nil => rfl
      | cons a b => exact absurd e (by simp)
    subst this
    cases hb

theorem sign_not_float {c : Char} (h : FloatText [c]) : False := by
  obtain ⟨sign, body, e, hs, hb⟩ := h
  have hlen := congrArg List.length e
  simp only [List.length_append, List.length_cons, List.length_nil] at hlen
  rcases hb with rfl | rfl | hb | hb
  · exact absurd hlen (by simp)
  · exact absurd hlen (by simp)
  · cases hb with
    | @point a b e s _ _ hab =>
      simp only [List.length_append, List.length_cons] at hlen
      rcases hab with h | h
      · have := List.length_pos_iff.mpr h; omega
      · have := List.length_pos_iff.mpr h; omega
    | @exponent a e s ha he =>
      obtain ⟨l, sg, cs, rfl, _⟩ := he
      have := List.length_pos_iff.mpr ha.1
      simp only [List.length_append, List.length_cons] at hlen
      omega
    | @suffix a s ha =>
      have := List.length_pos_iff.mpr ha.1
      simp only [List.length_append, List.length_cons, List.length_nil] at hlen
      omega
  · cases hb with
    | plain => simp only [List.length_append, List.length_cons] at hlen; omega
    | point => simp only [List.length_append, List.length_cons] at hlen; omega

/-- The first characters of each group of kinds but names. -/
def startChars : Nat → List Char
  | 0 => ['/']
  | 1 => ['"']
  | 2 => spaces
  | 3 => ['\x1a']
  | 4 => signs
  | 5 => intStarts
  | 6 => 'N' :: 'I' :: floatStarts
  | _ => reserved.filterMap fun s => s.toList.head?

theorem groupStart_mem {g : Nat} {c : Char} (hg : g < 8) (h : groupStart g c) : c ∈ startChars g := by
  match g, hg, h with
  | 0, _, h => exact List.mem_singleton.mpr h
  | 1, _, h => exact List.mem_singleton.mpr h
  | 2, _, h => exact h
  | 3, _, h => exact List.mem_singleton.mpr h
  | 4, _, h => exact h
  | 5, _, h => exact h
  | 6, _, h =>
    rcases h with h | rfl | rfl
    · exact List.mem_cons_of_mem _ (List.mem_cons_of_mem _ h)
    · decide
    · decide
  | 7, _, h =>
    obtain ⟨s, hs, cs, e⟩ := h
    exact List.mem_filterMap.mpr ⟨s, hs, by rw [e]; rfl⟩
  | n + 8, hg, _ => omega

/-- The groups with a first character in common. -/
theorem start_overlap {g g' : Nat} {c : Char} (hlt : g < g') (hg' : g' ≤ 8) (h : groupStart g c)
    (h' : groupStart g' c) : (g, g') ∈ [(4, 5), (4, 6), (5, 6), (6, 8), (7, 8)] := by
  have hm := groupStart_mem (by omega) h
  by_cases h8 : g' < 8
  · have : ∀ g ∈ List.range 8, ∀ g' ∈ List.range 8, g < g' → ∀ c ∈ startChars g,
        c ∈ startChars g' → (g, g') ∈ [(4, 5), (4, 6), (5, 6), (6, 8), (7, 8)] := by decide +kernel
    exact this g (List.mem_range.mpr (by omega)) g' (List.mem_range.mpr h8) hlt c hm
      (groupStart_mem h8 h')
  · have : g' = 8 := by omega
    subst this
    have hc : isIdentStart c = true ∨ c = '`' := h'
    have hlow : g < 6 → False := by
      intro h6
      have : ∀ g ∈ List.range 6, ∀ c ∈ startChars g,
          c ∈ '/' :: '"' :: '\x1a' :: spaces ++ signs ++ intStarts ++ floatStarts := by decide +kernel
      have := no_name_start c (this g (List.mem_range.mpr h6) c hm)
      rcases hc with hc | hc
      · rw [this.1] at hc; cases hc
      · exact this.2 hc
    have : g = 6 ∨ g = 7 := by
      by_cases h6 : g < 6
      · exact (hlow h6).elim
      · omega
    rcases this with rfl | rfl <;> decide

/-- Comments of different kinds have different texts. -/
theorem comment_unique {k k' : Kind} {w : List Char} (h : TokenText k w) (h' : TokenText k' w)
    (hk : k.group = 0) (hk' : k'.group = 0) : k = k' := by
  cases h with
  | doc hx =>
    generalize e : ('/' :: '*' :: '*' :: _ ++ ['*', '/'] : List Char) = w at h'
    cases h' with
    | doc _ => rfl
    | empty =>
      have := congrArg List.length e
      simp at this
    | block hc _ =>
      injection e with _ e
      injection e with _ e
      injection e with e _
      exact absurd e.symm hc
    | line => injection e with _ e; injection e with e _; exact absurd e (by decide)
    | _ => cases hk'
  | empty =>
    generalize e : (['/', '*', '*', '/'] : List Char) = w at h'
    cases h' with
    | doc _ =>
      have := congrArg List.length e
      simp at this
    | empty => rfl
    | block hc _ =>
      injection e with _ e
      injection e with _ e
      injection e with e _
      exact absurd e.symm hc
    | line => injection e with _ e; injection e with e _; exact absurd e (by decide)
    | _ => cases hk'
  | block hc hx =>
    generalize e : ('/' :: '*' :: _ :: _ ++ ['*', '/'] : List Char) = w at h'
    cases h' with
    | doc _ =>
      injection e with _ e
      injection e with _ e
      injection e with e _
      exact absurd e hc
    | empty =>
      injection e with _ e
      injection e with _ e
      injection e with e _
      exact absurd e hc
    | block _ _ => rfl
    | line => injection e with _ e; injection e with e _; exact absurd e (by decide)
    | _ => cases hk'
  | line hx =>
    generalize e : ('/' :: '/' :: _ ++ _ : List Char) = w at h'
    cases h' with
    | doc _ => injection e with _ e; injection e with e _; exact absurd e (by decide)
    | empty => injection e with _ e; injection e with e _; exact absurd e (by decide)
    | block _ _ => injection e with _ e; injection e with e _; exact absurd e (by decide)
    | line => rfl
    | _ => cases hk'
  | _ => cases hk

theorem text_kw {s : String} {w : List Char} (h : TokenText (.kw s) w) :
    s ∈ reserved ∧ w = s.toList := by
  generalize e : Kind.kw s = k at h
  cases h with
  | keyword hs => injection e with e; subst e; exact ⟨hs, rfl⟩
  | _ => cases e

theorem text_sym {c : Char} {w : List Char} (h : TokenText (.sym c) w) : c ∈ signs ∧ w = [c] := by
  generalize e : Kind.sym c = k at h
  cases h with
  | sign hs => injection e with e; subst e; exact ⟨hs, rfl⟩
  | _ => cases e

theorem text_int {w : List Char} (h : TokenText .int w) : IntText w := by
  generalize e : Kind.int = k at h
  cases h with
  | int h => exact h
  | _ => cases e

theorem text_float {w : List Char} (h : TokenText .float w) : FloatText w := by
  generalize e : Kind.float = k at h
  cases h with
  | float h => exact h
  | _ => cases e

theorem text_ident {w : List Char} (h : TokenText .ident w) : NameText w := by
  generalize e : Kind.ident = k at h
  cases h with
  | name h => exact h
  | _ => cases e

theorem group_unique {k k' : Kind} {w : List Char} (h : TokenText k w) (h' : TokenText k' w)
    (hg : k.group = k'.group) : k = k' := by
  by_cases h0 : k.group = 0
  · exact comment_unique h h' h0 (hg ▸ h0)
  · cases k <;> cases k' <;> first | rfl | exact absurd rfl h0 | (cases hg; done) | skip
    · have := (text_kw h).2.symm.trans (text_kw h').2
      rw [String.toList_injective this]
    · have := (text_sym h).2.symm.trans (text_sym h').2
      injection this with this _
      rw [this]

/-- A text is the text of one kind of token only, apart from reserved words, `NaN` and `Infinity`,
which look like names. -/
theorem kind_unique_lt {k k' : Kind} {w : List Char} (h : TokenText k w) (h' : TokenText k' w)
    (hlt : k.group < k'.group) :
    k' = .ident ∧ ((∃ s ∈ reserved, w = s.toList ∧ k = .kw s) ∨
        (k = .float ∧ (w = "NaN".toList ∨ w = "Infinity".toList))) := by
  obtain ⟨c, cs, rfl, hc⟩ := text_start h
  obtain ⟨c', cs', e, hc'⟩ := text_start h'
  injection e with e _
  subst e
  have hb : k'.group ≤ 8 := by cases k' <;> simp [Kind.group]
  have hov := start_overlap hlt hb hc hc'
  generalize e : c :: cs = w at h h'
  cases k <;> cases k' <;> first
    | (exfalso; revert hov; simp [Kind.group]; done)
    | skip
  · exact ⟨rfl, .inl ⟨_, (text_kw h).1, (text_kw h).2, rfl⟩⟩
  · obtain ⟨h1, rfl⟩ := text_sym h
    exact (sign_not_int h1 (text_int h')).elim
  · obtain ⟨h1, rfl⟩ := text_sym h
    exact (sign_not_float (text_float h')).elim
  · exact (int_not_float (text_int h) (text_float h')).elim
  · have h1 := text_float h
    have h2 := text_ident h'
    refine ⟨rfl, .inr ⟨rfl, ?_⟩⟩
    rcases floatText_start h1 with h | h | ⟨d, ds, e', hd⟩
    · exact .inl h
    · exact .inr h
    · obtain ⟨b, bs, e2, hb⟩ := nameText_start h2
      rw [e'] at e2
      injection e2 with e2 _
      subst e2
      have := no_name_start d (by simp [hd])
      rcases hb with hb | hb
      · rw [this.1] at hb; cases hb
      · exact absurd hb this.2

theorem kind_unique {k k' : Kind} {w : List Char} (h : TokenText k w) (h' : TokenText k' w)
    (hne : k ≠ k') :
    (k = .ident ∧ ((∃ s ∈ reserved, w = s.toList ∧ k' = .kw s) ∨
        (k' = .float ∧ (w = "NaN".toList ∨ w = "Infinity".toList)))) ∨
      (k' = .ident ∧ ((∃ s ∈ reserved, w = s.toList ∧ k = .kw s) ∨
        (k = .float ∧ (w = "NaN".toList ∨ w = "Infinity".toList)))) := by
  rcases Nat.lt_trichotomy k.group k'.group with hl | hl | hl
  · exact .inr (kind_unique_lt h h' hl)
  · exact absurd (group_unique h h' hl) hne
  · exact .inl (kind_unique_lt h' h hl)

/-! ## The first token -/

theorem firstRule_exists {rs : List LexRule} {r : LexRule} {w : List Char} (hr : r ∈ rs)
    (hm : RuleMatches r w) : ∃ k, FirstRule rs k w := by
  induction rs with
  | nil => cases hr
  | cons a rs ih =>
    by_cases ha : RuleMatches a w
    · exact ⟨a.kind, [], a, rs, rfl, rfl, ha, by simp⟩
    · rcases List.mem_cons.mp hr with rfl | hr
      · exact absurd hm ha
      · obtain ⟨k, before, r', after, e, hk, hm', hno⟩ := ih hr
        refine ⟨k, a :: before, r', after, by rw [e]; rfl, hk, hm', fun x hx => ?_⟩
        rcases List.mem_cons.mp hx with rfl | hx
        · exact ha
        · exact hno x hx

theorem ident_last {before after : List LexRule} {r : LexRule} (h : lexRules = before ++ r :: after)
    (hk : r.kind = .ident) : ∀ r' ∈ lexRules, r'.kind ≠ .ident → r' ∈ before := by
  have hl : ∃ init last, lexRules = init ++ [last] ∧ ∀ r ∈ init, r.kind ≠ .ident := by
    refine ⟨lexRules.dropLast, ⟨.ident, false, identRx⟩, ?_, ?_⟩
    · unfold lexRules
      rw [List.dropLast_append_of_ne_nil (by simp)]
      simp
    · have hall : (lexRules.dropLast.map (·.kind)).all (· != .ident) = true := by decide +kernel
      intro r hr
      have := List.all_eq_true.mp hall _ (List.mem_map.mpr ⟨r, hr, rfl⟩)
      simpa using this
  obtain ⟨init, last, e, hno⟩ := hl
  rw [e] at h
  rcases List.eq_nil_or_concat after with ha | ⟨a', x, ha⟩
  · subst ha
    have := List.append_inj' h rfl
    intro r' hr' hk'
    rw [e] at hr'
    rcases List.mem_append.mp hr' with h1 | h1
    · rw [← this.1]; exact h1
    · have h2 := this.2
      injection h2 with h2
      simp only [List.mem_singleton] at h1
      subst h1
      rw [h2] at hk'
      exact absurd hk hk'
  · subst ha
    rw [List.concat_eq_append, ← List.cons_append, ← List.append_assoc] at h
    have := (List.append_inj' h rfl).1
    exact absurd hk (hno r (by rw [this]; simp))

theorem isToken_iff {input w : List Char} {k : Kind} :
    IsToken input k w ↔ FirstToken input k w := by
  have longest : (∀ r ∈ lexRules, ∀ v, RuleMatches r v → v <+: input → v.length ≤ w.length) ↔
      ∀ k' v, TokenText k' v → v <+: input → v.length ≤ w.length := by
    constructor
    · intro h k' v hv hp
      obtain ⟨r, hr, rfl⟩ := text_rule hv
      exact h r hr v ((rule_text hr).mpr hv) hp
    · intro h r hr v hm hp
      exact h _ v ((rule_text hr).mp hm) hp
  constructor
  · rintro ⟨_, hp, ⟨before, r, after, e, rfl, hm, hno⟩, hl⟩
    have hr : r ∈ lexRules := by rw [e]; simp
    have hno' : r.kind = .ident → ∀ k', k' ≠ .ident → ¬ TokenText k' w := by
      intro hk k' hk' ht
      obtain ⟨r', hr', rfl⟩ := text_rule ht
      exact hno r' (ident_last e hk r' hr' hk') ((rule_text hr').mpr ht)
    refine ⟨hp, (rule_text hr).mp hm, fun hk => ⟨fun s hs hw => ?_, fun hw => ?_, fun hw => ?_⟩,
      longest.mp hl⟩
    · exact hno' hk (.kw s) (by simp) (hw ▸ .keyword hs)
    · exact hno' hk .float (by simp) (hw ▸ .float ⟨[], _, rfl, by decide, .inl rfl⟩)
    · exact hno' hk .float (by simp) (hw ▸ .float ⟨[], _, rfl, by decide, .inr (.inl rfl)⟩)
  · rintro ⟨hp, ht, hname, hl⟩
    refine ⟨text_ne_nil ht, hp, ?_, longest.mpr hl⟩
    obtain ⟨r, hr, rfl⟩ := text_rule ht
    have hm := (rule_text hr).mpr ht
    obtain ⟨k0, hf⟩ := firstRule_exists hr hm
    obtain ⟨before, r0, after, e, rfl, hm0, hno⟩ := hf
    have hr0 : r0 ∈ lexRules := by rw [e]; simp
    have ht0 := (rule_text hr0).mp hm0
    by_cases hk : r0.kind = r.kind
    · exact ⟨before, r0, after, e, hk, hm0, hno⟩
    · exfalso
      rcases kind_unique ht0 ht hk with ⟨h0, _⟩ | ⟨h1, h2⟩
      · exact hno r (ident_last e h0 r hr fun h => hk (h0.trans h.symm)) hm
      · have := hname h1
        rcases h2 with ⟨s, hs, hw, _⟩ | ⟨_, hw | hw⟩
        · exact this.1 s hs hw
        · exact this.2.1 hw
        · exact this.2.2 hw

theorem viable_beginning {v : List Char} : Viable v ↔ Beginning v := by
  constructor
  · rintro ⟨r, hr, x, hm⟩
    exact ⟨_, x, (rule_text hr).mp hm⟩
  · rintro ⟨k, x, ht⟩
    obtain ⟨r, hr, rfl⟩ := text_rule ht
    exact ⟨r, hr, x, (rule_text hr).mpr ht⟩

theorem isUnrecognised_iff {input w : List Char} : IsUnrecognised input w ↔ NoToken input w := by
  unfold IsUnrecognised NoToken
  simp only [viable_beginning]
  have : (∀ r ∈ lexRules, ∀ v, RuleMatches r v → ¬ v <+: input) ↔
      ∀ k v, TokenText k v → ¬ v <+: input := by
    constructor
    · intro h k v hv
      obtain ⟨r, hr, rfl⟩ := text_rule hv
      exact h r hr v ((rule_text hr).mpr hv)
    · intro h r hr v hm
      exact h _ v ((rule_text hr).mp hm)
  rw [this]

theorem pieces_cut {text : List Char} {ps : List Piece} : Pieces text ps ↔ Cut text ps := by
  constructor
  · intro h
    induction h with
    | done => exact .done
    | token h _ ih => exact .token (isToken_iff.mp h) ih
    | unrecognised h _ ih => exact .skipped (isUnrecognised_iff.mp h) ih
  · intro h
    induction h with
    | done => exact .done
    | token h _ ih => exact .token (isToken_iff.mpr h) ih
    | skipped h _ ih => exact .unrecognised (isUnrecognised_iff.mpr h) ih

end Avdl
