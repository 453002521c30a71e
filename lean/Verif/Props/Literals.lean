import Verif.Lemmas.Strings
/-!
# Properties of literals: C18, C19
-/

namespace Avdl.Props
open Avdl Spec

/-! ## C18 integer literals -/

/-- C18.  An integer token used as a JSON value denotes its mathematical value if that fits a
signed 64-bit integer and is rejected otherwise.

Partial: the value `-2^63` written in hexadecimal or octal is excluded; the code rejects it, see
`C18_min_value_rejected`. -/
theorem C18_integer_literal_partial {text : String} {n : Notation} {negative long : Bool}
    {mag : Nat} (h : IntegerToken text n negative long mag) :
    (FitsI64 (denoted negative mag) → denoted negative mag ≠ -(2 ^ 63) ∨ n = .decimal →
      parseIntegerLiteral text = some (denoted negative mag)) ∧
    (¬ FitsI64 (denoted negative mag) → parseIntegerLiteral text = none) := by
  obtain ⟨body, suffix, hm, hs, ht⟩ := h
  have ht : dropUnderscores text.toList = (if negative then ['-'] else []) ++ body ++ suffix := ht
  cases negative with
  | true =>
    simp only [if_true] at ht
    have hp : parseIntegerLiteral text = parseIntegerBody ('-' :: body) := by
      unfold parseIntegerLiteral
      rw [ht, dropLongSuffix_token hm (Or.inl rfl) hs]
      rfl
    rw [hp, parseIntegerBody_neg hm]
    simp only [denoted, if_true, FitsI64]
    constructor
    · intro h1 h2
      rw [if_pos]
      rcases h2 with h2 | h2
      · left; omega
      · rcases Nat.lt_or_ge mag (2 ^ 63) with h3 | h3
        · exact Or.inl h3
        · exact Or.inr ⟨h2, by omega⟩
    · intro h1
      rw [if_neg]
      rintro (h2 | ⟨_, h2⟩) <;> exact h1 (by omega)
  | false =>
    simp only [Bool.false_eq_true, if_false, List.nil_append] at ht
    have hp : parseIntegerLiteral text = parseIntegerBody body := by
      unfold parseIntegerLiteral
      have := dropLongSuffix_token (sign := []) hm (Or.inr rfl) hs
      simp only [List.nil_append] at this
      rw [ht, this]
    rw [hp, parseIntegerBody_pos hm]
    simp only [denoted, Bool.false_eq_true, if_false, FitsI64]
    constructor
    · intro h1 _
      rw [if_pos (by omega)]
    · intro h1
      rw [if_neg (by omega)]

/-- C18 is violated at one value: `-2^63` fits a signed 64-bit integer, but every hexadecimal or
octal token for it is rejected. -/
theorem C18_min_value_rejected {text : String} {n : Notation} {long : Bool}
    (h : IntegerToken text n true long (2 ^ 63)) (hn : n ≠ .decimal) :
    FitsI64 (denoted true (2 ^ 63)) ∧ parseIntegerLiteral text = none := by
  refine ⟨by unfold FitsI64; decide, ?_⟩
  obtain ⟨body, suffix, hm, hs, ht⟩ := h
  simp only [if_true] at ht
  have ht : dropUnderscores text.toList = ['-'] ++ body ++ suffix := ht
  have hp : parseIntegerLiteral text = parseIntegerBody ('-' :: body) := by
    unfold parseIntegerLiteral
    rw [ht, dropLongSuffix_token hm (Or.inl rfl) hs]
    rfl
  rw [hp, parseIntegerBody_neg hm, if_neg]
  rintro (h2 | ⟨h2, _⟩)
  · exact absurd h2 (Nat.lt_irrefl _)
  · exact hn h2

/-- Sizes, precisions and scales: an unsigned token without suffix is accepted with its value
exactly if that is below `2^32`; a signed token is rejected.

Partial: a token with an `l`/`L` suffix is excluded; the code rejects it whatever its value, see
`C18_u32_suffix_rejected`. -/
theorem C18_u32_partial {text : String} {n : Notation} {negative : Bool} {mag : Nat}
    (h : IntegerToken text n negative false mag) :
    parseIntegerAsU32 text = if negative = false ∧ mag < 2 ^ 32 then some mag else none := by
  obtain ⟨body, suffix, hm, hs, ht⟩ := h
  simp only [Bool.false_eq_true, if_false] at hs
  subst hs
  rw [List.append_nil] at ht
  cases negative with
  | false =>
    simp only [Bool.false_eq_true, if_false, List.nil_append, true_and] at ht ⊢
    exact parseIntegerAsU32_pos hm ht
  | true =>
    simp only [if_true] at ht
    have ht : dropUnderscores text.toList = '-' :: body := ht
    unfold parseIntegerAsU32
    simp only [ht]
    rw [if_neg (by simp)]
    rfl

theorem u32FromStrRadix_bad {r : Nat} {cs : List Char} {x : Char} (hr : r ≤ 16) (hx : x ∈ cs)
    (h1 : digitVal 16 x = none) (h2 : x ≠ '+') : u32FromStrRadix r cs = none := by
  cases h : u32FromStrRadix r cs with
  | none => rfl
  | some n =>
    exfalso
    rcases u32FromStrRadix_inv hr h with hd | ⟨ds, rfl, hd⟩
    · obtain ⟨d, hd⟩ := digits_mem hd hx
      exact digit_ne hr hd h1 rfl
    · rcases List.mem_cons.mp hx with rfl | hx
      · exact h2 rfl
      · obtain ⟨d, hd⟩ := digits_mem hd hx
        exact digit_ne hr hd h1 rfl

/-- A long suffix is not accepted on sizes, precisions and scales. -/
theorem C18_u32_suffix_rejected {text : String} {n : Notation} {negative : Bool} {mag : Nat}
    (h : IntegerToken text n negative true mag) : parseIntegerAsU32 text = none := by
  obtain ⟨body, suffix, hm, hs, ht⟩ := h
  simp only [if_true] at hs
  have ht : dropUnderscores text.toList = (if negative then ['-'] else []) ++ body ++ suffix := ht
  obtain ⟨x, hx, rfl⟩ : ∃ x, (x = 'l' ∨ x = 'L') ∧ suffix = [x] := by
    rcases hs with rfl | rfl
    · exact ⟨_, Or.inl rfl, rfl⟩
    · exact ⟨_, Or.inr rfl, rfl⟩
  have hx16 : digitVal 16 x = none := by rcases hx with rfl | rfl <;> decide
  have hxp : x ≠ '+' := by rcases hx with rfl | rfl <;> decide
  have hx0 : x ≠ '0' := by rcases hx with rfl | rfl <;> decide
  have hxx : x ≠ 'x' ∧ x ≠ 'X' := by rcases hx with rfl | rfl <;> decide
  unfold parseIntegerAsU32
  simp only [ht]
  split
  · rfl
  · have hmem : x ∈ (if negative then ['-'] else []) ++ body ++ [x] := by simp
    generalize (if negative then ['-'] else []) ++ body ++ [x] = number at hmem
    split
    all_goals try
      (apply u32FromStrRadix_bad (by omega) hmem hx16 hxp)
    all_goals
      rcases List.mem_cons.mp hmem with h | h
      · exact absurd h hx0
      · rcases List.mem_cons.mp h with h | h
        · first | exact absurd h hxx.1 | exact absurd h hxx.2
        · exact u32FromStrRadix_bad (by omega) h hx16 hxp

/-- A non-trivial instance: `-0x7fff_ffff_ffff_ffffL`. -/
example : IntegerToken "-0x7fL" .hex true true 127 :=
  ⟨['0', 'x', '7', 'f'], ['L'],
    .hex (Or.inl rfl) (by simp)
      (.cons (d := 7) (v := 15) (by unfold IsDigit; decide)
        (.cons (d := 15) (v := 0) (by unfold IsDigit; decide) .nil)),
    by simp, by decide⟩
example : parseIntegerLiteral "-0x7fff_ffff_ffff_ffffL" = some (-9223372036854775807) := by decide
example : parseIntegerLiteral "-9223372036854775808" = some (-9223372036854775808) := by decide
example : parseIntegerLiteral "-9223372036854775809" = none := by decide
example : parseIntegerLiteral "-0x8000000000000000" = none := by decide
example : parseIntegerLiteral "017" = some 15 := by decide
example : parseIntegerAsU32 "4294967295" = some 4294967295 := by decide
example : parseIntegerAsU32 "16L" = none := by decide

/-! ## C19 string literals -/

/-- A string token: a body between double quotes. -/
def quoted (e : List Char) : String := String.ofList ('"' :: e ++ ['"'])

theorem getStringFromLiteral_quoted (e : List Char) :
    getStringFromLiteral (quoted e) = String.ofList (unescapeJava e) := by
  unfold getStringFromLiteral quoted
  rw [if_neg]
  · simp [String.toList_ofList]
  · simp [String.toList_ofList]

/-- C19.  Every string token denotes exactly one string, and that is what the reader computes. -/
theorem C19_token_decodes {e : List Char} (h : StringBody e) :
    ∃ s, Decodes e s ∧ (∀ s', Decodes e s' → s' = s) ∧
      getStringFromLiteral (quoted e) = String.ofList s := by
  obtain ⟨s, hs⟩ := decodes_total_aux e.length e (Nat.le_refl _) h
  refine ⟨s, hs, ?_, ?_⟩
  · intro s' hs'
    rw [← unescapeJava_of_decodes hs, ← unescapeJava_of_decodes hs']
  · rw [getStringFromLiteral_quoted, unescapeJava_of_decodes hs]

/-- C19.  Decoding any escaped form of a string, in whatever mixture of escapes, returns the
string. -/
theorem C19_decode {e s : List Char} (h : Decodes e s) :
    getStringFromLiteral (quoted e) = String.ofList s := by
  rw [getStringFromLiteral_quoted, unescapeJava_of_decodes h]

/-- C19.  Text without backslashes is unchanged. -/
theorem C19_plain {e : List Char} (h : '\\' ∉ e) :
    getStringFromLiteral (quoted e) = String.ofList e := by
  apply C19_decode
  induction e with
  | nil => exact .nil
  | cons c e ih =>
    exact .plain (fun hc => h (hc ▸ List.mem_cons_self ..))
      (ih (fun hm => h (List.mem_cons_of_mem _ hm)))

/-- The hexadecimal digit of value `d`. -/
def hexDigit (d : Nat) : Char := ("0123456789abcdef".toList[d]?).getD '0'

/-- `\uXXXX` for a UTF-16 code unit. -/
def unit (v : Nat) : List Char :=
  ['\\', 'u', hexDigit (v / 4096), hexDigit (v / 256 % 16), hexDigit (v / 16 % 16),
    hexDigit (v % 16)]

/-- Java's escape of a character by its UTF-16 code units. -/
def escapeUnits (c : Char) : List Char :=
  if c.toNat < 65536 then unit c.toNat
  else unit (55296 + (c.toNat - 65536) / 1024) ++ unit (56320 + (c.toNat - 65536) % 1024)

theorem isDigit_hexDigit : ∀ d, d < 16 → "0123456789abcdef".toList[d]? = some (hexDigit d) := by
  decide

theorem unit_escape {v : Nat} (h : v < 65536) : UnicodeEscape (unit v) v := by
  refine ⟨0, [hexDigit (v / 4096), hexDigit (v / 256 % 16), hexDigit (v / 16 % 16),
    hexDigit (v % 16)], rfl, ?_, rfl⟩
  have d : ∀ d, d < 16 → IsDigit 16 (hexDigit d) d := fun d hd =>
    ⟨hd, Or.inl (isDigit_hexDigit d hd)⟩
  have : Digits 16 [hexDigit (v / 4096), hexDigit (v / 256 % 16), hexDigit (v / 16 % 16),
      hexDigit (v % 16)] (v / 4096 * 16 ^ 3 + (v / 256 % 16 * 16 ^ 2 +
        (v / 16 % 16 * 16 ^ 1 + (v % 16 * 16 ^ 0 + 0)))) :=
    .cons (d _ (by omega)) (.cons (d _ (by omega)) (.cons (d _ (by omega))
      (.cons (d _ (by omega)) .nil)))
  have e : v / 4096 * 16 ^ 3 + (v / 256 % 16 * 16 ^ 2 +
        (v / 16 % 16 * 16 ^ 1 + (v % 16 * 16 ^ 0 + 0))) = v := by omega
  rw [e] at this
  exact this

/-- Scalar values are not surrogates. -/
theorem char_scalar (c : Char) : ¬ High c.toNat ∧ ¬ Low c.toNat ∧ c.toNat ≤ 0x10FFFF := by
  have h := c.valid
  have e : c.toNat = c.val.toNat := rfl
  unfold UInt32.isValidChar Nat.isValidChar at h
  unfold High Low
  rw [e]
  omega

theorem decodes_escapeUnits (c : Char) {e s : List Char} (h : Decodes e s) :
    Decodes (escapeUnits c ++ e) (c :: s) := by
  obtain ⟨h1, h2, h3⟩ := char_scalar c
  unfold escapeUnits
  split
  · rename_i hlt
    have := Decodes.unicode (unit_escape hlt) h1 h2 h
    rwa [Char.ofNat_toNat] at this
  · rename_i hge
    have hh : High (55296 + (c.toNat - 65536) / 1024) := by unfold High; omega
    have hl : Low (56320 + (c.toNat - 65536) % 1024) := by unfold Low; omega
    have := Decodes.pair (unit_escape (by omega)) hh (unit_escape (by omega)) hl h
    have e : 0x10000 + (55296 + (c.toNat - 65536) / 1024 - 0xD800) * 0x400
        + (56320 + (c.toNat - 65536) % 1024 - 0xDC00) = c.toNat := by omega
    rw [e, Char.ofNat_toNat] at this
    exact this

/-- C19.  Escaping every character by its UTF-16 code units and decoding returns the string. -/
theorem C19_unicode_round_trip (s : String) :
    getStringFromLiteral (quoted (s.toList.flatMap escapeUnits)) = s := by
  have key : ∀ cs : List Char, Decodes (cs.flatMap escapeUnits) cs := by
    intro cs
    induction cs with
    | nil => exact .nil
    | cons c cs ih => rw [List.flatMap_cons]; exact decodes_escapeUnits c ih
  rw [C19_decode (key _), String.ofList_toList]

/-- Escaping only what a string literal requires: backslash, quote and the control characters the
lexer excludes. -/
def escapeMinimal (c : Char) : List Char :=
  if c = '\\' then ['\\', '\\'] else if c = '"' then ['\\', '"']
  else if c = '\n' then ['\\', 'n'] else if c = '\r' then ['\\', 'r']
  else if c = '\t' then ['\\', 't'] else if c = '\x08' then ['\\', 'b']
  else if c = '\x0c' then ['\\', 'f'] else [c]

/-- C19.  The minimal escaping round-trips too. -/
theorem C19_minimal_round_trip (s : String) :
    getStringFromLiteral (quoted (s.toList.flatMap escapeMinimal)) = s := by
  have key : ∀ cs : List Char, Decodes (cs.flatMap escapeMinimal) cs := by
    intro cs
    induction cs with
    | nil => exact .nil
    | cons c cs ih =>
      rw [List.flatMap_cons]
      unfold escapeMinimal
      split
      · rename_i h; subst h; exact .named (by simp [namedEscapes]) ih
      · rename_i hb
        split
        · rename_i h; subst h; exact .named (by simp [namedEscapes]) ih
        · split
          · rename_i h; subst h; exact .named (by simp [namedEscapes]) ih
          · split
            · rename_i h; subst h; exact .named (by simp [namedEscapes]) ih
            · split
              · rename_i h; subst h; exact .named (by simp [namedEscapes]) ih
              · split
                · rename_i h; subst h; exact .named (by simp [namedEscapes]) ih
                · split
                  · rename_i h; subst h; exact .named (by simp [namedEscapes]) ih
                  · exact .plain hb ih
  rw [C19_decode (key _), String.ofList_toList]

/-- Outside the lexer's language `\u+041` is accepted as `A`: the digit parser takes a sign.  The
lexer's string rule requires four hexadecimal digits, so no token reaches this. -/
theorem C19_plus_sign_accepted :
    getStringFromLiteral (quoted ['\\', 'u', '+', '0', '4', '1']) = "A" := by decide

example : getStringFromLiteral "\"a\\tb\\1018\\u0041\\uuu00e9\\ud83d\\ude00\\ud800\"" =
    "a\tbA8Aé😀\\ud800" := by decide
example : escapeUnits '😀' = "\\ud83d\\ude00".toList := by decide

end Avdl.Props
