import Verif.Spec.Literal
import Verif.Spec.Tokens
import Mathlib.Algebra.Order.Field.Rat
import Mathlib.Algebra.Order.Field.Power
/-!
# Specification of floating-point literals

The doubles of IEEE 754 as rational numbers, what it means to round to the nearest one, and the
numbers that the literals of Verif/Spec/Tokens.lean denote.
-/

namespace Avdl.Spec.Floats
open Tokens

/-! ## Doubles -/

/-- The number `m · 2^e`. -/
def dyadic (m : ℕ) (e : ℤ) : ℚ := m * 2 ^ e

/-- A finite double that is not negative: 53 bits and an exponent within bounds. -/
def IsDouble (x : ℚ) : Prop :=
  ∃ (m : ℕ) (e : ℤ), m < 2 ^ 53 ∧ -1074 ≤ e ∧ e ≤ 971 ∧ x = dyadic m e

/-- The way a double is stored: all 53 bits are used unless the exponent is the least. -/
def Stored (m : ℕ) (e : ℤ) : Prop :=
  m < 2 ^ 53 ∧ -1074 ≤ e ∧ e ≤ 971 ∧ (2 ^ 52 ≤ m ∨ e = -1074)

/-- From here on the nearest double would need an exponent that is too large. -/
def tooLarge : ℚ := 2 ^ 1024 - 2 ^ 970

/-- The stored double `m · 2^e` is the one nearest to `x`; of two that are equally near, it is the
one with an even significand. -/
structure NearestDouble (x : ℚ) (m : ℕ) (e : ℤ) : Prop where
  inRange : x < tooLarge
  stored : Stored m e
  nearest : ∀ z, IsDouble z → |x - dyadic m e| ≤ |x - z|
  even : ∀ z, IsDouble z → z ≠ dyadic m e → |x - dyadic m e| = |x - z| → m % 2 = 0

/-- The JSON value for the number `x`, which is not negative, with or without a minus sign: the
nearest double, or the word for infinity. -/
inductive RoundedTo (neg : Bool) (x : ℚ) : Json → Prop
  | finite {m e} : NearestDouble x m e → RoundedTo neg x (.num (.float neg m e))
  | infinite : tooLarge ≤ x → RoundedTo neg x (.str (if neg then "-Infinity" else "Infinity"))

/-! ## Literals -/

/-- The exponent written, zero if there is none. -/
inductive ExponentIs (letters : List Char) : List Char → ℤ → Prop
  | none : ExponentIs letters [] 0
  | plus {l sign ds n} : l ∈ letters → sign ∈ [[], ['+']] → ds ≠ [] → Digits 10 ds n →
      ExponentIs letters (l :: sign ++ ds) n
  | minus {l ds n} : l ∈ letters → ds ≠ [] → Digits 10 ds n →
      ExponentIs letters (l :: '-' :: ds) (-n)

/-- A point or, if no digits follow, possibly nothing. -/
def Point (p b : List Char) : Prop := p = ['.'] ∨ (p = [] ∧ b = [])

/-- An unsigned decimal literal with digits `a` before and `b` after the point, and its value. -/
inductive Decimal : List Char → ℚ → Prop
  | mk {a p b e s n x} : Point p b → a ++ b ≠ [] → Digits 10 (a ++ b) n →
      ExponentIs ['e', 'E'] e x → Suffix s →
      Decimal (a ++ p ++ b ++ e ++ s) (n * 10 ^ (x - b.length))

/-- An unsigned hexadecimal literal: the value of the digits before the point, the number of digits
after it, the value of all digits, and the exponent. -/
inductive Hexadecimal : List Char → ℕ → ℕ → ℕ → ℤ → Prop
  | mk {c a p b e s i n x} : c = 'x' ∨ c = 'X' → Point p b → a ++ b ≠ [] → Digits 16 a i →
      Digits 16 (a ++ b) n → e ≠ [] → ExponentIs ['p', 'P'] e x → Suffix s →
      Hexadecimal ('0' :: c :: a ++ p ++ b ++ e ++ s) i b.length n x

/-- The number a hexadecimal literal denotes. -/
def hexValue (places n : ℕ) (x : ℤ) : ℚ := n * 2 ^ (x - 4 * places)

/-- The sign of a literal. -/
def SignIs (sign : List Char) (neg : Bool) : Prop :=
  (sign = ['-'] ∧ neg = true) ∨ (sign ∈ [[], ['+']] ∧ neg = false)

end Avdl.Spec.Floats
