import Verif.Spec.Literal
import Verif.Reader
/-!
# Specification: JSON values in source files

What a JSON value written as a default or in an annotation denotes.  Floating point literals
denote what the float parser makes of them.
-/

namespace Avdl.Spec

/-- A string literal and the string it denotes. -/
def StringMeans (raw s : String) : Prop :=
  ∃ e, raw.toList = '"' :: e ++ ['"'] ∧ Decodes e s.toList

/-- The value of the last member called `k`. -/
def lastMember (k : String) : List (String × Json) → Option Json
  | [] => none
  | (k', v) :: ms =>
      match lastMember k ms with
      | some w => some w
      | none => if k' = k then some v else none

/-- The object with the given members, of which the last of each name counts; the entries of an
object are ordered by name. -/
def ObjectOf (ms : List (String × Json)) (o : JMap) : Prop :=
  o.Pairwise (fun a b => a.1 < b.1) ∧ ∀ k, o.get? k = lastMember k ms

mutual
/-- A JSON value and what it denotes. -/
inductive JsonMeans [FloatTables] : JVal → Json → Prop
  | null : JsonMeans .null .null
  | true : JsonMeans .true (.bool true)
  | false : JsonMeans .false (.bool false)
  | str {raw s} : StringMeans raw s → JsonMeans (.str raw) (.str s)
  | int {text span n negative long mag} : IntegerToken text n negative long mag →
      FitsI64 (denoted negative mag) → JsonMeans (.int text span) (.num (.int (denoted negative mag)))
  | float {text span j} : parseFloatingPointLiteral text = some j → JsonMeans (.float text span) j
  | arr {vs js} : ListMeans vs js → JsonMeans (.arr vs) (.arr js)
  | obj {ps ms o} : MembersMean ps ms → ObjectOf ms o → JsonMeans (.obj ps) (.obj o)
/-- The elements of an array. -/
inductive ListMeans [FloatTables] : List JVal → List Json → Prop
  | nil : ListMeans [] []
  | cons {v j vs js} : JsonMeans v j → ListMeans vs js → ListMeans (v :: vs) (j :: js)
/-- The members of an object. -/
inductive MembersMean [FloatTables] : List (String × JVal) → List (String × Json) → Prop
  | nil : MembersMean [] []
  | cons {raw k v j ps ms} : StringMeans raw k → JsonMeans v j → MembersMean ps ms →
      MembersMean ((raw, v) :: ps) ((k, j) :: ms)
end

/-- A string literal as the lexer delivers it. -/
def IsStringToken (raw : String) : Prop := ∃ e, raw.toList = '"' :: e ++ ['"'] ∧ StringBody e

/-- An integer literal as the lexer delivers it. -/
def IsIntegerToken (text : String) : Prop := ∃ n negative long mag,
  IntegerToken text n negative long mag

mutual
/-- The literals of a JSON value are tokens the lexer can deliver. -/
inductive LexedJson : JVal → Prop
  | null : LexedJson .null
  | true : LexedJson .true
  | false : LexedJson .false
  | str {raw} : IsStringToken raw → LexedJson (.str raw)
  | int {text span} : IsIntegerToken text → LexedJson (.int text span)
  | float {text span} : LexedJson (.float text span)
  | arr {vs} : LexedList vs → LexedJson (.arr vs)
  | obj {ps} : LexedMembers ps → LexedJson (.obj ps)
/-- The same for lists. -/
inductive LexedList : List JVal → Prop
  | nil : LexedList []
  | cons {v vs} : LexedJson v → LexedList vs → LexedList (v :: vs)
/-- The same for members. -/
inductive LexedMembers : List (String × JVal) → Prop
  | nil : LexedMembers []
  | cons {raw v ps} : IsStringToken raw → LexedJson v → LexedMembers ps →
      LexedMembers ((raw, v) :: ps)
end

/-- `text` is the smallest 64-bit integer, not written in decimal. -/
def MinNotDecimal (text : String) : Prop := ∃ n long, n ≠ .decimal ∧
  IntegerToken text n true long (2 ^ 63)

/-- No integer in a JSON value is `-2^63` written in hexadecimal or octal. -/
inductive NoMinHex : JVal → Prop
  | null : NoMinHex .null
  | true : NoMinHex .true
  | false : NoMinHex .false
  | str {raw} : NoMinHex (.str raw)
  | int {text span} : ¬ MinNotDecimal text → NoMinHex (.int text span)
  | float {text span} : NoMinHex (.float text span)
  | arr {vs} : (∀ v ∈ vs, NoMinHex v) → NoMinHex (.arr vs)
  | obj {ps} : (∀ p ∈ ps, NoMinHex p.2) → NoMinHex (.obj ps)

end Avdl.Spec
