/-!
# What cleaning a doc comment may do

Written without reference to the code.  Texts are character lists.
-/

namespace Avdl.DocSpec

/-- A line break. -/
def Break (b : List Char) : Prop := b = ['\n'] ∨ b = ['\r', '\n']

/-- A blank: space or tab. -/
def Blank (c : Char) : Prop := c = ' ' ∨ c = '\t'

/-- Two texts have the same lines up to `R0` on the first line and `R` on every further line, and
the same line breaks between them. -/
inductive LineWise (R : List Char → List Char → Prop) :
    (List Char → List Char → Prop) → List Char → List Char → Prop
  | last {R0 : List Char → List Char → Prop} {a a' : List Char} :
      '\n' ∉ a → R0 a a' → LineWise R R0 a a'
  | more {R0 : List Char → List Char → Prop} {a a' b t t' : List Char} :
      '\n' ∉ a → R0 a a' → Break b → LineWise R R t t' → LineWise R R0 (a ++ b ++ t) (a' ++ b ++ t')

/-- `r'` is `r` without its first character if that is a blank, and `r` otherwise. -/
def OneBlankLess (r r' : List Char) : Prop :=
  (∃ b, Blank b ∧ r = b :: r') ∨ (r' = r ∧ ∀ b rest, r = b :: rest → ¬ Blank b)

/-- The star decoration of a first line: the stars and at most one blank. -/
def StarFirst (stars a a' : List Char) : Prop := ∃ r, a = stars ++ r ∧ OneBlankLess r a'

/-- The star decoration of a further line: blanks, the stars and at most one blank.  A line of
blanks only need not have it and is kept. -/
def StarLine (stars a a' : List Char) : Prop :=
  ((∀ c ∈ a, Blank c) ∧ a' = a) ∨
    ∃ ws r, (∀ c ∈ ws, Blank c) ∧ a = ws ++ stars ++ r ∧ OneBlankLess r a'

/-- The common indentation of a further line.  A line of white space only need not have it and is
kept if it does not. -/
def IndentLine (white : Char → Prop) (indent a a' : List Char) : Prop :=
  a = indent ++ a' ∨ ((∀ c ∈ a, white c) ∧ a' = a)

/-- The permitted results of a clean-up: one kind of star decoration removed from every line, one
common indentation removed from every line after the first, or nothing changed. -/
inductive Cleaned (white : Char → Prop) (text out : List Char) : Prop
  | stars (s : List Char) : s = ['*'] ∨ s = ['*', '*'] →
      LineWise (StarLine s) (StarFirst s) text out → Cleaned white text out
  | indent (i : List Char) : i ≠ [] → (∀ c ∈ i, white c) →
      LineWise (IndentLine white i) (fun a a' => a' = a) text out → Cleaned white text out
  | same : out = text → Cleaned white text out

/-- `core` is `body` without the white space around it. -/
structure Core (white : Char → Prop) (body core : List Char) : Prop where
  around : ∃ before after, body = before ++ core ++ after ∧
    (∀ c ∈ before, white c) ∧ ∀ c ∈ after, white c
  first : ∀ c rest, core = c :: rest → ¬ white c
  last : ∀ c rest, core = rest ++ [c] → ¬ white c

end Avdl.DocSpec
