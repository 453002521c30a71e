/-!
# Specification: edit distance
-/

namespace Avdl.Spec

/-- One edit: insert, delete or replace one character somewhere. -/
inductive Edit : List Char → List Char → Prop
  | insert (x y : List Char) (c : Char) : Edit (x ++ y) (x ++ c :: y)
  | delete (x y : List Char) (c : Char) : Edit (x ++ c :: y) (x ++ y)
  | replace (x y : List Char) (c d : Char) : Edit (x ++ c :: y) (x ++ d :: y)

/-- One text becomes the other by a number of edits. -/
inductive Edits : List Char → List Char → Nat → Prop
  | done (a : List Char) : Edits a a 0
  | step {a b c : List Char} {n : Nat} : Edit a b → Edits b c n → Edits a c (n + 1)

/-- The edit distance: the least number of edits. -/
def Distance (a b : List Char) (n : Nat) : Prop := Edits a b n ∧ ∀ m, Edits a b m → n ≤ m

/-- The text is in ASCII. -/
def Ascii (s : List Char) : Prop := ∀ c ∈ s, c.toNat < 128

instance (s : List Char) : Decidable (Ascii s) := by unfold Ascii; infer_instance

end Avdl.Spec

namespace Avdl.Spec

/-- The part of a possibly dotted name after its last dot. -/
def SimpleName (name simple : List Char) : Prop :=
  '.' ∉ simple ∧ (name = simple ∨ ∃ ns, name = ns ++ '.' :: simple)

/-- How many edits are tolerated: one for names of up to four characters, otherwise two. -/
def tolerance (len : Nat) : Nat := if len ≤ 4 then 1 else 2

/-- Two names are close, `d` edits apart. -/
def Near (a b : List Char) (d : Nat) : Prop :=
  Distance a b d ∧ d ≤ tolerance (min a.length b.length)

/-- `s` is a reasonable replacement, `d` edits away, for an undefined type name: a primitive type
close to the simple name, or a registered type close in full or by simple name. -/
inductive Candidate (prims names : List String) (undefined : String) : String → Nat → Prop
  | prim {s : String} {simple : List Char} {d : Nat} : s ∈ prims →
      SimpleName undefined.toList simple → Near simple s.toList d →
      Candidate prims names undefined s d
  | full {s : String} {d : Nat} : s ∈ names → Near undefined.toList s.toList d →
      Candidate prims names undefined s d
  | simple {s : String} {simple simple' : List Char} {d : Nat} : s ∈ names →
      SimpleName undefined.toList simple → SimpleName s.toList simple' → Near simple simple' d →
      Candidate prims names undefined s d

end Avdl.Spec
