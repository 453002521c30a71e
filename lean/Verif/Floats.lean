import Verif.Literals
/-!
# Floating-point literals

Model of `parse_float_text` and `parse_hex_float_mantissa_and_exponent`, /repo/src/reader.rs
4050-4157.  Doubles that are not negative are written `m · 2^e`; the arithmetic is that of IEEE 754,
each operation being the exact result rounded to the nearest double, the even one of two.
-/

namespace Avdl

/-! ## Arithmetic -/

/-- An `f64` without its sign. -/
inductive Mag where
  | nan
  | inf
  | fin (m : Nat) (e : Int)
deriving DecidableEq, Repr

/-- The exponent of the greatest power of two that is at most `p / q`. -/
def floorLog (p q : Nat) : Int :=
  let k : Int := (p.log2 : Int) - (q.log2 : Int)
  if p * 2 ^ (-k).toNat < q * 2 ^ k.toNat then k - 1 else k

/-- The integer nearest to `num / den`, the even one of two. -/
def roundHalfEven (num den : Nat) : Nat :=
  let m := num / den
  let r := num % den
  if den < 2 * r ∨ (2 * r = den ∧ m % 2 = 1) then m + 1 else m

/-- The exponent of the last place of a double of the size of `p / q`. -/
def lastPlace (p q : Nat) : Int := max (-1074) (floorLog p q - 52)

/-- The significand of `p / q` in units of `2^e`. -/
def significand (p q : Nat) (e : Int) : Nat :=
  roundHalfEven (p * 2 ^ (-e).toNat) (q * 2 ^ e.toNat)

/-- The double nearest to `p / q`. -/
def roundRat (p q : Nat) : Mag :=
  if p = 0 then .fin 0 (-1074)
  else
    let e := lastPlace p q
    let m := significand p q e
    if m = 2 ^ 53 then (if 971 < e + 1 then .inf else .fin (2 ^ 52) (e + 1))
    else (if 971 < e then .inf else .fin m e)

/-- The double nearest to `m · 2^e`. -/
def roundDyadic (m : Nat) (e : Int) : Mag := roundRat (m * 2 ^ e.toNat) (2 ^ (-e).toNat)

/-- `a + b` of doubles that are not negative. -/
def Mag.add : Mag → Mag → Mag
  | .nan, _ | _, .nan => .nan
  | .inf, _ | _, .inf => .inf
  | .fin m e, .fin m' e' =>
      roundDyadic (m * 2 ^ (e - min e e').toNat + m' * 2 ^ (e' - min e e').toNat) (min e e')

/-- `a * b` of doubles that are not negative. -/
def Mag.mul : Mag → Mag → Mag
  | .nan, _ | _, .nan => .nan
  | .inf, .inf => .inf
  | .inf, .fin m _ | .fin m _, .inf => if m = 0 then .nan else .inf
  | .fin m e, .fin m' e' => roundDyadic (m * m') (e + e')

/-- `a / 16.0`. -/
def Mag.div16 : Mag → Mag
  | .nan => .nan
  | .inf => .inf
  | .fin m e => roundDyadic m (e - 4)

/-- `2.0_f64.powi(e)`.  Rust leaves the precision of `powi` open; for powers of two within the range
of normal doubles every known implementation multiplies exactly.  Below that range results differ:
multiplying up and taking the reciprocal gives zero, a shift of the exponent does not. -/
class PowTables where
  pow2 : Int → Mag
  exact : ∀ e : Int, -1022 ≤ e → e ≤ 1023 → pow2 e = .fin (2 ^ 52) (e - 52)
  large : ∀ e : Int, 1024 ≤ e → pow2 e = .inf

/-! ## Parts of numbers -/

/-- `split_once` at the first character with the property. -/
def splitOnce (p : Char → Bool) : List Char → Option (List Char × List Char)
  | [] => none
  | c :: cs =>
      if p c then some ([], cs)
      else match splitOnce p cs with
        | some (a, b) => some (c :: a, b)
        | none => none

/-- `str::parse::<i32>`: an optional sign, then digits, within range. -/
def i32FromStr : List Char → Option Int
  | '-' :: ds =>
      match parseDigits 10 ds with
      | some n => if n ≤ 2 ^ 31 then some (-(n : Int)) else none
      | none => none
  | '+' :: ds =>
      match parseDigits 10 ds with
      | some n => if n < 2 ^ 31 then some (n : Int) else none
      | none => none
  | ds =>
      match parseDigits 10 ds with
      | some n => if n < 2 ^ 31 then some (n : Int) else none
      | none => none

/-- `u64::from_str_radix(_, 16)`: an optional `+`, then digits, at most `u64::MAX`. -/
def u64FromHex (cs : List Char) : Option Nat :=
  let v := match cs with
    | '+' :: ds => parseDigits 16 ds
    | ds => parseDigits 16 ds
  match v with
  | some n => if n < 2 ^ 64 then some n else none
  | none => none

/-! ## Hexadecimal literals -/

/-- The loop over the digits after the point, /repo/src/reader.rs 4138-4147. -/
def hexFraction : Mag → Mag → List Char → Option Mag
  | val, _, [] => some val
  | val, place, c :: cs =>
      match digitVal 16 c with
      | none => none
      | some d => hexFraction (val.add ((roundRat d 1).mul place)) place.div16 cs

/-- The mantissa, /repo/src/reader.rs 4124-4154. -/
def hexMantissa (cs : List Char) : Option Mag :=
  match splitOnce (· == '.') cs with
  | some (int, frac) =>
      match (if int.isEmpty then some (.fin 0 (-1074)) else (u64FromHex int).map (roundRat · 1)) with
      | none => none
      | some i =>
        match hexFraction (.fin 0 (-1074)) (roundRat 1 16) frac with
        | none => none
        | some f => some (i.add f)
  | none => (u64FromHex cs).map (roundRat · 1)

/-- `parse_hex_float_mantissa_and_exponent`, /repo/src/reader.rs 4112-4157. -/
def parseHexFloat [PowTables] (cs : List Char) : Option Mag :=
  match splitOnce (fun c => c == 'p' || c == 'P') cs with
  | none => none
  | some (mantissa, exponent) =>
    match i32FromStr exponent with
    | none => none
    | some x =>
      match hexMantissa mantissa with
      | none => none
      | some m => some (m.mul (PowTables.pow2 x))

/-! ## Decimal literals -/

/-- The digits at the beginning of a text, and the rest. -/
def spanDigits (cs : List Char) : List Char × List Char :=
  (cs.takeWhile Char.isDigit, cs.dropWhile Char.isDigit)

/-- The digits after a point, if there is one, and the rest. -/
def spanFraction : List Char → List Char × List Char
  | '.' :: rest => spanDigits rest
  | rest => ([], rest)

/-- A decimal exponent up to the end of the text; the value `0` if there is no text. -/
def decimalExponent : List Char → Option Int
  | [] => some 0
  | c :: cs =>
      if c == 'e' || c == 'E' then
        match cs with
        | '-' :: ds => (parseDigits 10 ds).map fun n => -(n : Int)
        | '+' :: ds => (parseDigits 10 ds).map fun n => (n : Int)
        | ds => (parseDigits 10 ds).map fun n => (n : Int)
      else none

/-- `n · 10^x` as a double. -/
def scaleDecimal (n : Nat) (x : Int) : Mag := roundRat (n * 10 ^ x.toNat) (10 ^ (-x).toNat)

/-- The unsigned numbers that `f64::from_str` accepts, correctly rounded.  The Rust standard library
is not part of the repository: this description of it is an assumption. -/
def decimalMag (cs : List Char) : Option Mag :=
  let (a, rest) := spanDigits cs
  let (b, rest) := spanFraction rest
  if a.isEmpty && b.isEmpty then none
  else match decimalExponent rest with
    | none => none
    | some x => (parseDigits 10 (a ++ b)).map fun n => scaleDecimal n (x - b.length)

/-- The words that `f64::from_str` accepts, in any case. -/
def wordMag (cs : List Char) : Option Mag :=
  let w := String.ofList (cs.map Char.toLower)
  if w = "inf" ∨ w = "infinity" then some .inf
  else if w = "nan" then some .nan
  else none

/-- A double with its sign. -/
def Mag.signed (neg : Bool) : Mag → F64
  | .nan => .nan
  | .inf => if neg then .negInf else .posInf
  | .fin m e => .finite neg m e

/-! ## Literals -/

/-- The text without the sign, and whether that is a minus sign, /repo/src/reader.rs 4084-4087
(and, the same, in `f64::from_str`). -/
def splitSign : List Char → Bool × List Char
  | '-' :: cs => (true, cs)
  | '+' :: cs => (false, cs)
  | cs => (false, cs)

/-- Removing the suffix, /repo/src/reader.rs 4075-4079. -/
def dropFloatSuffix (cs : List Char) : List Char :=
  match cs.getLast? with
  | some 'f' | some 'F' | some 'd' | some 'D' => cs.dropLast
  | _ => cs

/-- A literal without its sign and suffix, /repo/src/reader.rs 4089-4099. -/
def unsignedFloat [PowTables] : List Char → Option Mag
  | '0' :: 'x' :: hex | '0' :: 'X' :: hex => parseHexFloat hex
  | number =>
      match decimalMag number with
      | some m => some m
      | none => wordMag number

/-- `parse_float_text`, /repo/src/reader.rs 4056-4100. -/
def parseFloatText [PowTables] (text : String) : Option F64 :=
  if text = "NaN" ∨ text = "+NaN" ∨ text = "-NaN" then some .nan
  else if text = "Infinity" ∨ text = "+Infinity" then some .posInf
  else if text = "-Infinity" then some .negInf
  else
    let (neg, number) := splitSign (dropFloatSuffix text.toList)
    (unsignedFloat number).map (Mag.signed neg)

/-- The parser of floating-point literals. -/
@[reducible] def literalFloats [PowTables] : FloatTables := ⟨parseFloatText⟩

end Avdl
