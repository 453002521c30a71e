import Verif.Spec.JsonValue
import Verif.JsonText
/-!
# Specification: JSON text

The grammar of RFC 8259 and what a text denotes, with the extension that comments may stand
wherever white space may.  From the model it takes only the table of floating point numbers.
-/

namespace Avdl.Spec

/-- White space of JSON. -/
def jsonSpaces : List Char := [' ', '\n', '\t', '\r']

/-- White space, no comments. -/
def Spaces (w : List Char) : Prop := ∀ c ∈ w, c ∈ jsonSpaces

/-- White space and comments: `/*` up to the next `*/`, or `//` up to the end of the line. -/
inductive Blank : List Char → Prop
  | nil : Blank []
  | space {c w} : c ∈ jsonSpaces → Blank w → Blank (c :: w)
  | block {b w} : ¬ ['*', '/'] <:+: b → Blank w →
      Blank ('/' :: '*' :: b ++ '*' :: '/' :: w)
  | line {b w} : '\n' ∉ b → Blank w → Blank ('/' :: '/' :: b ++ '\n' :: w)

/-- White space and comments at the end of a text, where the last line need not end. -/
def BlankEnd (w : List Char) : Prop :=
  Blank w ∨ ∃ w' b, Blank w' ∧ '\n' ∉ b ∧ w = w' ++ '/' :: '/' :: b

/-! ## Strings -/

/-- The single-character escapes of JSON. -/
def jsonEscapes : List (Char × Char) :=
  [('"', '"'), ('\\', '\\'), ('/', '/'), ('b', '\x08'), ('f', '\x0c'), ('n', '\n'), ('r', '\r'),
   ('t', '\t')]

/-- A `\u` escape and its UTF-16 code unit. -/
def CodeUnit (e : List Char) (v : Nat) : Prop :=
  ∃ hex, hex.length = 4 ∧ Digits 16 hex v ∧ e = '\\' :: 'u' :: hex

/-- The text between the quotes of a string, and the string. -/
inductive JsonChars : List Char → List Char → Prop
  | nil : JsonChars [] []
  | plain {c e s} : c ≠ '"' → c ≠ '\\' → 0x20 ≤ c.toNat → JsonChars e s →
      JsonChars (c :: e) (c :: s)
  | escape {k c e s} : (k, c) ∈ jsonEscapes → JsonChars e s → JsonChars ('\\' :: k :: e) (c :: s)
  | unicode {u v e s} : CodeUnit u v → ¬ High v → ¬ Low v → JsonChars e s →
      JsonChars (u ++ e) (Char.ofNat v :: s)
  | pair {u h w l e s} : CodeUnit u h → High h → CodeUnit w l → Low l → JsonChars e s →
      JsonChars (u ++ w ++ e) (Char.ofNat (0x10000 + (h - 0xD800) * 0x400 + (l - 0xDC00)) :: s)

/-- A string with its quotes, and the string. -/
def JsonString (cs : List Char) (s : String) : Prop :=
  ∃ e, cs = '"' :: e ++ ['"'] ∧ JsonChars e s.toList

/-! ## Numbers -/

/-- Decimal digits, at least one. -/
def SomeDigits (ds : List Char) : Prop := ds ≠ [] ∧ ∃ v, Digits 10 ds v

/-- The integral part of a number: no superfluous leading zero. -/
def IntPart (ds : List Char) : Prop := SomeDigits ds ∧ (ds.head? = some '0' → ds = ['0'])

/-- The fraction of a number, or nothing. -/
def Fraction (cs : List Char) : Prop := cs = [] ∨ ∃ ds, SomeDigits ds ∧ cs = '.' :: ds

/-- The exponent of a number, or nothing. -/
def Exponent (cs : List Char) : Prop := cs = [] ∨
  ∃ e sign ds, (e = 'e' ∨ e = 'E') ∧ (sign = [] ∨ sign = ['+'] ∨ sign = ['-']) ∧ SomeDigits ds ∧
    cs = e :: sign ++ ds

/-- A number and what it denotes: integers are kept exactly if they fit in 64 bits, signed if there
is a minus sign; everything else is a floating point number. -/
inductive JsonNumber [JsonFloats] : List Char → JNum → Prop
  | natural {ds v} : IntPart ds → Digits 10 ds v → v < 2 ^ 64 → JsonNumber ds (.int v)
  | negative {ds v} : IntPart ds → Digits 10 ds v → 0 < v → v ≤ 2 ^ 63 →
      JsonNumber ('-' :: ds) (.int (-(v : Int)))
  | float {sign ds frac exp f} : (sign = [] ∨ sign = ['-']) → IntPart ds → Fraction frac →
      Exponent exp →
      (frac ++ exp = [] → (∀ v, Digits 10 ds v → sign = [] → 2 ^ 64 ≤ v) ∧
        (∀ v, Digits 10 ds v → sign = ['-'] → v = 0 ∨ 2 ^ 63 < v)) →
      JsonFloats.read (sign ++ ds ++ frac ++ exp) = some f →
      JsonNumber (sign ++ ds ++ frac ++ exp) (.float f.1 f.2.1 f.2.2)

/-! ## Values -/

mutual
/-- A text without white space around it, and the value it denotes.  `B` says what may stand
between tokens; the number is a bound on the nesting of arrays and objects. -/
inductive JsonVal [JsonFloats] (B : List Char → Prop) : Nat → List Char → Json → Prop
  | null {d} : JsonVal B d "null".toList .null
  | true {d} : JsonVal B d "true".toList (.bool true)
  | false {d} : JsonVal B d "false".toList (.bool false)
  | num {d cs n} : JsonNumber cs n → JsonVal B d cs (.num n)
  | str {d cs s} : JsonString cs s → JsonVal B d cs (.str s)
  | arr0 {d w} : B w → JsonVal B (d + 1) ('[' :: w ++ [']']) (.arr [])
  | arr {d cs l} : JsonVals B d cs l → JsonVal B (d + 1) ('[' :: cs ++ [']']) (.arr l)
  | obj0 {d w} : B w → JsonVal B (d + 1) ('{' :: w ++ ['}']) (.obj [])
  | obj {d cs ms o} : JsonMembers B d cs ms → ObjectOf ms o →
      JsonVal B (d + 1) ('{' :: cs ++ ['}']) (.obj o)
/-- One or more values separated by commas. -/
inductive JsonVals [JsonFloats] (B : List Char → Prop) : Nat → List Char → List Json → Prop
  | one {d w cs w' j} : B w → JsonVal B d cs j → B w' → JsonVals B d (w ++ cs ++ w') [j]
  | more {d w cs w' j rest l} : B w → JsonVal B d cs j → B w' → JsonVals B d rest l →
      JsonVals B d (w ++ cs ++ w' ++ ',' :: rest) (j :: l)
/-- One or more members separated by commas. -/
inductive JsonMembers [JsonFloats] (B : List Char → Prop) :
    Nat → List Char → List (String × Json) → Prop
  | one {d w ks k w1 w2 cs w' j} : B w → JsonString ks k → B w1 → B w2 → JsonVal B d cs j → B w' →
      JsonMembers B d (w ++ ks ++ w1 ++ ':' :: w2 ++ cs ++ w') [(k, j)]
  | more {d w ks k w1 w2 cs w' j rest l} : B w → JsonString ks k → B w1 → B w2 → JsonVal B d cs j →
      B w' → JsonMembers B d rest l →
      JsonMembers B d (w ++ ks ++ w1 ++ ':' :: w2 ++ cs ++ w' ++ ',' :: rest) ((k, j) :: l)
end

/-- A JSON text and the document it denotes. -/
def JsonText [JsonFloats] (d : Nat) (text : List Char) (j : Json) : Prop :=
  ∃ w cs w', Spaces w ∧ JsonVal Spaces d cs j ∧ Spaces w' ∧ text = w ++ cs ++ w'

/-- The same with comments. -/
def CommentedJson [JsonFloats] (d : Nat) (text : List Char) (j : Json) : Prop :=
  ∃ w cs w', Blank w ∧ JsonVal Blank d cs j ∧ BlankEnd w' ∧ text = w ++ cs ++ w'

/-! ## Documents -/

mutual
/-- How deep arrays and objects are nested. -/
def nesting : Json → Nat
  | .arr l => nestingList l + 1
  | .obj m => nestingMap m + 1
  | _ => 0
/-- The same for lists. -/
def nestingList : List Json → Nat
  | [] => 0
  | j :: l => max (nesting j) (nestingList l)
/-- The same for the members of an object. -/
def nestingMap : List (String × Json) → Nat
  | [] => 0
  | (_, j) :: m => max (nesting j) (nestingMap m)
end

/-- A number as `serde_json` can hold it and can write so that it reads the same number back.
(Integers have 64 bits.  Floating point numbers do not always survive: the crate reads them
approximately.) -/
def Survives [JsonFloats] : JNum → Prop
  | .int i => -(2 ^ 63) ≤ i ∧ i < 2 ^ 64
  | .float neg m e => JsonNumber (JsonFloats.write neg m e) (.float neg m e)

mutual
/-- A document as `serde_json` can hold it: the keys of an object are distinct and in order; and
its numbers survive. -/
def Storable [JsonFloats] : Json → Prop
  | .null => True
  | .bool _ => True
  | .num n => Survives n
  | .str _ => True
  | .arr l => StorableList l
  | .obj m => m.Pairwise (fun a b => a.1 < b.1) ∧ StorableMap m
/-- The same for lists. -/
def StorableList [JsonFloats] : List Json → Prop
  | [] => True
  | j :: l => Storable j ∧ StorableList l
/-- The same for the members of an object. -/
def StorableMap [JsonFloats] : List (String × Json) → Prop
  | [] => True
  | (_, j) :: m => Storable j ∧ StorableMap m
end

end Avdl.Spec
