import Verif.Lexer
/-!
# What the tokens of a text are

A declarative reading of the lexer rules, for C39: the language of a rule; the longest match, first
rule wins; unrecognised text.
-/

namespace Avdl.Spec.Lexing

/-- The texts an expression matches. -/
inductive Matches : Rx → List Char → Prop
  | eps : Matches .eps []
  | chr {p c} : p c = true → Matches (.chr p) [c]
  | seq {a b v w} : Matches a v → Matches b w → Matches (.seq a b) (v ++ w)
  | left {a b w} : Matches a w → Matches (.alt a b) w
  | right {a b w} : Matches b w → Matches (.alt a b) w
  | done {a} : Matches (.star a) []
  | more {a v w} : Matches a v → Matches (.star a) w → Matches (.star a) (v ++ w)

/-- The texts a rule matches.  A non-greedy rule ends as soon as it can. -/
def RuleMatches (r : LexRule) (w : List Char) : Prop :=
  Matches r.rx w ∧ (r.isLazy = true → ∀ v, v <+: w → v ≠ w → ¬ Matches r.rx v)

/-- Some token begins with this text. -/
def Viable (v : List Char) : Prop := ∃ r ∈ lexRules, ∃ x, RuleMatches r (v ++ x)

/-- `w` is the first token of the input, of type `k`: a rule matches it, no earlier rule does, and
no rule matches a longer beginning of the input. -/
def IsToken (input : List Char) (k : Kind) (w : List Char) : Prop :=
  w ≠ [] ∧ w <+: input ∧
  (∃ before r after, lexRules = before ++ r :: after ∧ r.kind = k ∧ RuleMatches r w ∧
    ∀ r' ∈ before, ¬ RuleMatches r' w) ∧
  ∀ r ∈ lexRules, ∀ v, RuleMatches r v → v <+: input → v.length ≤ w.length

/-- The input begins with no token; `w` is its shortest beginning with which no token begins, or all
of it. -/
def IsUnrecognised (input w : List Char) : Prop :=
  w ≠ [] ∧ w <+: input ∧
  (∀ r ∈ lexRules, ∀ v, RuleMatches r v → ¬ v <+: input) ∧
  (∀ v, v <+: w → v ≠ w → Viable v) ∧ (w = input ∨ ¬ Viable w)

/-- The pieces of a text. -/
inductive Pieces : List Char → List Piece → Prop
  | done : Pieces [] []
  | token {k w rest ps} : IsToken (w ++ rest) k w → Pieces rest ps →
      Pieces (w ++ rest) (⟨some k, w⟩ :: ps)
  | unrecognised {w rest ps} : IsUnrecognised (w ++ rest) w → Pieces rest ps →
      Pieces (w ++ rest) (⟨none, w⟩ :: ps)

end Avdl.Spec.Lexing
