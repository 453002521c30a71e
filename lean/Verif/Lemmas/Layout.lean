import Verif.Lemmas.Lexing
/-!
# Where tokens end

Which rules can match more than a given token.
-/

namespace Avdl
open Spec.Lexing

/-- White space, the beginnings of comments and strings, and the signs that are no part of numbers
or names: these characters end every word and number. -/
def sepChars : List Char := ['\t', '\n', '\x0c', '\r', ' ', '/', '"', '(', ')', '{', '}', '[', ']',
  ':', ';', ',', '@', '=', '?', '<', '>']

/-! ## What the rules match -/

/-- No class of the expression contains the character. -/
def Rx.avoids (c : Char) : Rx → Bool
  | never => true
  | eps => true
  | chr p => !p c
  | seq a b => a.avoids c && b.avoids c
  | alt a b => a.avoids c && b.avoids c
  | star a => a.avoids c

theorem avoids_matches {c : Char} {r : Rx} {w : List Char} (hm : Matches r w) :
    r.avoids c = true → c ∉ w := by
  induction hm with
  | eps => simp
  | @chr p c' h =>
    intro ha hmem
    simp only [List.mem_singleton] at hmem
    subst hmem
    simp [Rx.avoids, h] at ha
  | seq _ _ ih1 ih2 =>
    intro ha hmem
    simp only [Rx.avoids, Bool.and_eq_true] at ha
    rcases List.mem_append.mp hmem with h | h
    · exact ih1 ha.1 h
    · exact ih2 ha.2 h
  | left _ ih =>
    intro ha
    simp only [Rx.avoids, Bool.and_eq_true] at ha
    exact ih ha.1
  | right _ ih =>
    intro ha
    simp only [Rx.avoids, Bool.and_eq_true] at ha
    exact ih ha.2
  | done => simp
  | more _ _ ih1 ih2 =>
    intro ha hmem
    rcases List.mem_append.mp hmem with h | h
    · exact ih1 ha h
    · exact ih2 ha h

theorem matches_lit {c : Char} {w : List Char} : Matches (.lit c) w ↔ w = [c] := by
  unfold Rx.lit
  rw [matches_chr]
  constructor
  · rintro ⟨c', rfl, h⟩
    rw [eq_of_beq h]
  · rintro rfl
    exact ⟨c, rfl, by simp⟩

theorem matches_seqs_cons {a : Rx} {as : List Rx} {w : List Char} :
    Matches (.seqs (a :: as)) w ↔ ∃ v x, w = v ++ x ∧ Matches a v ∧ Matches (.seqs as) x := by
  cases as with
  | nil =>
    simp only [Rx.seqs]
    constructor
    · intro h; exact ⟨w, [], by simp, h, .eps⟩
    · rintro ⟨v, x, rfl, h, h'⟩
      rw [matches_eps] at h'
      subst h'
      simpa using h
  | cons b as => exact matches_seq

theorem matches_seqs_nil {w : List Char} : Matches (.seqs []) w ↔ w = [] := matches_eps

theorem matches_chars {cs w : List Char} : Matches (.seqs (cs.map .lit)) w ↔ w = cs := by
  induction cs generalizing w with
  | nil => exact matches_seqs_nil
  | cons c cs ih =>
    rw [List.map_cons, matches_seqs_cons]
    constructor
    · rintro ⟨v, x, rfl, h, h'⟩
      rw [matches_lit] at h
      rw [ih] at h'
      subst h h'
      rfl
    · rintro rfl
      exact ⟨[c], cs, rfl, matches_lit.mpr rfl, ih.mpr rfl⟩

theorem matches_word {s : String} {w : List Char} : Matches (.word s) w ↔ w = s.toList :=
  matches_chars

theorem matches_any {w : List Char} : Matches (.star .any) w := by
  induction w with
  | nil => exact .done
  | cons c w ih => exact .more (v := [c]) (.chr rfl) ih

theorem matches_starChr {p : Char → Bool} {w : List Char} :
    Matches (.star (.chr p)) w ↔ ∀ c ∈ w, p c = true := by
  induction w with
  | nil => simp [Matches.done]
  | cons c w ih =>
    rw [matches_star_cons]
    simp only [matches_chr]
    constructor
    · rintro ⟨v, x, rfl, ⟨c', e, hp⟩, h⟩
      injection e with e1 e2
      subst e1 e2
      have := ih.mp h
      intro d hd
      rcases List.mem_cons.mp hd with rfl | hd
      · exact hp
      · exact this d hd
    · intro h
      exact ⟨[], w, rfl, ⟨c, rfl, h c (by simp)⟩, ih.mpr fun d hd => h d (by simp [hd])⟩

/-- The rules by name. -/
def docRule : LexRule := ⟨.doc, true, .seqs [.word "/**", .star .any, .word "*/"]⟩
def emptyRule : LexRule := ⟨.emptyComment, false, .word "/**/"⟩
def blockRule : LexRule :=
  ⟨.multiLineComment, true, .seqs [.word "/*", .noneOf ['*'], .star .any, .word "*/"]⟩
def lineRule : LexRule :=
  ⟨.singleLineComment, false, .seqs [.word "//", .star (.noneOf ['\n', '\r']),
    .alt (.lit '\n') (.seq (.lit '\r') (.opt (.lit '\n')))]⟩
def wsRule : LexRule := ⟨.ws, false, .oneOf ['\t', '\n', '\x0c', '\r', ' ']⟩
def subRule : LexRule := ⟨.sub, false, .lit '\x1a'⟩
def stringRule : LexRule := ⟨.string, true, stringRx⟩

theorem doc_matches {w : List Char} :
    Matches docRule.rx w ↔ ∃ x, w = '/' :: '*' :: '*' :: x ++ ['*', '/'] := by
  unfold docRule
  simp only [matches_seqs_cons, matches_seqs_nil, matches_word]
  constructor
  · rintro ⟨v, y, rfl, rfl, v', y', rfl, _, v'', y'', rfl, rfl, rfl⟩
    exact ⟨v', rfl⟩
  · rintro ⟨x, rfl⟩
    exact ⟨['/', '*', '*'], x ++ ['*', '/'], rfl, rfl, x, ['*', '/'], rfl, matches_any, ['*', '/'],
      [], rfl, rfl, rfl⟩

theorem empty_matches {w : List Char} :
    Matches emptyRule.rx w ↔ w = ['/', '*', '*', '/'] := matches_word

theorem block_matches {w : List Char} : Matches blockRule.rx w ↔
    ∃ c x, w = '/' :: '*' :: c :: x ++ ['*', '/'] ∧ c ≠ '*' := by
  unfold blockRule
  simp only [matches_seqs_cons, matches_seqs_nil, matches_word, Rx.noneOf, matches_chr]
  constructor
  · rintro ⟨v, y, rfl, rfl, v', y', rfl, ⟨c, rfl, hc⟩, v'', y'', rfl, _, v3, y3, rfl, rfl, rfl⟩
    refine ⟨c, v'', rfl, ?_⟩
    rintro rfl
    simp at hc
  · rintro ⟨c, x, rfl, hc⟩
    exact ⟨['/', '*'], c :: (x ++ ['*', '/']), rfl, rfl, [c], x ++ ['*', '/'], rfl,
      ⟨c, rfl, by simp [hc]⟩, x, ['*', '/'], rfl, matches_any, ['*', '/'], [], rfl, rfl, rfl⟩

theorem line_matches {w : List Char} : Matches lineRule.rx w ↔
    ∃ x e, w = '/' :: '/' :: x ++ e ∧ (∀ c ∈ x, c ≠ '\n' ∧ c ≠ '\r') ∧
      (e = ['\n'] ∨ e = ['\r'] ∨ e = ['\r', '\n']) := by
  unfold lineRule
  simp only [matches_seqs_cons, matches_seqs_nil, matches_word, Rx.noneOf, matches_starChr,
    matches_alt, matches_lit, matches_seq, Rx.opt, matches_eps]
  constructor
  · rintro ⟨v, y, rfl, rfl, x, y', rfl, hx, v'', y'', rfl, he, rfl⟩
    refine ⟨x, v'', by simp, fun c hc => by simpa using hx c hc, ?_⟩
    rcases he with rfl | ⟨a, b, rfl, rfl, rfl | rfl⟩
    · exact .inl rfl
    · exact .inr (.inr rfl)
    · exact .inr (.inl rfl)
  · rintro ⟨x, e, rfl, hx, he⟩
    refine ⟨['/', '/'], x ++ e, rfl, rfl, x, e, rfl, fun c hc => by simpa using hx c hc, e, [], by simp, ?_, rfl⟩
    rcases he with rfl | rfl | rfl
    · exact .inl rfl
    · exact .inr ⟨['\r'], [], rfl, rfl, .inr rfl⟩
    · exact .inr ⟨['\r'], ['\n'], rfl, rfl, .inl rfl⟩

theorem string_matches {w : List Char} (h : Matches stringRule.rx w) : ∃ x, w = '"' :: x := by
  unfold stringRule stringRx at h
  obtain ⟨v, x, rfl, h, _⟩ := matches_seqs_cons.mp h
  rw [matches_lit] at h
  subst h
  exact ⟨x, rfl⟩

/-! ## The rules in groups -/

/-- Keywords, numbers and names. -/
def LexRule.isWord (r : LexRule) : Bool :=
  match r.kind with
  | .kw _ | .int | .float | .ident => true
  | _ => false

/-- Rules for a single character. -/
def LexRule.isSingle (r : LexRule) : Bool :=
  match r.kind with
  | .ws | .sub | .sym _ => true
  | _ => false

theorem lexRules_words :
    lexRules.all (fun r => !r.isWord || sepChars.all fun c => r.rx.avoids c) = true := by
  decide +kernel

theorem word_no_sep {r : LexRule} (hr : r ∈ lexRules) (hw : r.isWord = true) {v : List Char}
    (hm : Matches r.rx v) : ∀ c ∈ v, c ∉ sepChars := by
  intro c hc hs
  have h := List.all_eq_true.mp lexRules_words r hr
  simp only [hw, Bool.not_true, Bool.false_or] at h
  exact avoids_matches hm (List.all_eq_true.mp h c hs) hc

theorem mem_lexRules {r : LexRule} (h : r ∈ lexRules) :
    r.isWord = true ∨ r = subRule ∨ r = wsRule ∨ (∃ c ∈ lexSigns, r = ⟨.sym c, false, .lit c⟩) ∨
      r = docRule ∨ r = emptyRule ∨ r = blockRule ∨ r = lineRule ∨ r = stringRule := by
  unfold lexRules at h
  simp only [List.mem_append, List.mem_map] at h
  rcases h with ((h | ⟨w, hw, rfl⟩) | ⟨c, hc, rfl⟩) | h
  · simp only [spaceRules, List.mem_cons, List.not_mem_nil, or_false] at h
    rcases h with rfl | rfl | rfl | rfl | rfl | rfl
    · exact .inr (.inl rfl)
    · exact .inr (.inr (.inr (.inr (.inl rfl))))
    · exact .inr (.inr (.inr (.inr (.inr (.inl rfl)))))
    · exact .inr (.inr (.inr (.inr (.inr (.inr (.inl rfl))))))
    · exact .inr (.inr (.inr (.inr (.inr (.inr (.inr (.inl rfl)))))))
    · exact .inr (.inr (.inl rfl))
  · exact .inl rfl
  · exact .inr (.inr (.inr (.inl ⟨c, hc, rfl⟩)))
  · simp only [List.mem_cons, List.not_mem_nil, or_false] at h
    rcases h with rfl | rfl | rfl | rfl
    · exact .inr (.inr (.inr (.inr (.inr (.inr (.inr (.inr rfl)))))))
    · exact .inl rfl
    · exact .inl rfl
    · exact .inl rfl

/-- What a rule can match, by its first character. -/
theorem match_start {r : LexRule} (hr : r ∈ lexRules) {v : List Char} (hm : Matches r.rx v) :
    (r.isWord = true ∧ ∀ c ∈ v, c ∉ sepChars) ∨ (∃ c, v = [c]) ∨
      ((r = docRule ∨ r = emptyRule ∨ r = blockRule ∨ r = lineRule) ∧ ∃ x, v = '/' :: x) ∨
      (r = stringRule ∧ ∃ x, v = '"' :: x) := by
  rcases mem_lexRules hr with h | rfl | rfl | ⟨c, _, rfl⟩ | rfl | rfl | rfl | rfl | rfl
  · exact .inl ⟨h, word_no_sep hr h hm⟩
  · exact .inr (.inl ⟨_, matches_lit.mp hm⟩)
  · obtain ⟨c, rfl, _⟩ := matches_chr.mp hm
    exact .inr (.inl ⟨c, rfl⟩)
  · exact .inr (.inl ⟨_, matches_lit.mp hm⟩)
  · obtain ⟨x, rfl⟩ := doc_matches.mp hm
    exact .inr (.inr (.inl ⟨.inl rfl, _, rfl⟩))
  · rw [empty_matches] at hm
    exact .inr (.inr (.inl ⟨.inr (.inl rfl), _, hm⟩))
  · obtain ⟨c, x, rfl, _⟩ := block_matches.mp hm
    exact .inr (.inr (.inl ⟨.inr (.inr (.inl rfl)), _, rfl⟩))
  · obtain ⟨x, e, rfl, _⟩ := line_matches.mp hm
    exact .inr (.inr (.inl ⟨.inr (.inr (.inr rfl)), _, rfl⟩))
  · exact .inr (.inr (.inr ⟨rfl, string_matches hm⟩))

/-- The longest beginning with a property is determined. -/
theorem span_unique {P : Char → Prop} {y z p q : List Char} (hy : ∀ c ∈ y, P c)
    (hz : ∀ c ∈ z, P c) (hp : ∃ d r, p = d :: r ∧ ¬ P d) (hq : ∃ d r, q = d :: r ∧ ¬ P d)
    (h : y ++ p = z ++ q) : p = q := by
  induction y generalizing z with
  | nil =>
    cases z with
    | nil => exact h
    | cons c z =>
      obtain ⟨d, r, rfl, hd⟩ := hp
      simp only [List.nil_append, List.cons_append] at h
      injection h with h _
      exact absurd (hz c (by simp)) (by rw [← h]; exact hd)
  | cons c y ih =>
    cases z with
    | nil =>
      obtain ⟨d, r, rfl, hd⟩ := hq
      simp only [List.nil_append, List.cons_append] at h
      injection h with h _
      exact absurd (hy c (by simp)) (by rw [h]; exact hd)
    | cons c' z =>
      simp only [List.cons_append] at h
      injection h with _ h
      exact ih (fun c hc => hy c (by simp [hc])) (fun c hc => hz c (by simp [hc])) h

/-! ## Longer matches -/

/-- The tokens that end where they end, whatever follows. -/
def Kind.closed : Kind → Bool
  | .string | .doc | .multiLineComment | .ws => true
  | .sym c => c != '-' && c != '.'
  | _ => false

/-- A match longer than a token. -/
theorem longer_match {r0 r : LexRule} {t x : List Char} (h0 : r0 ∈ lexRules) (hr : r ∈ lexRules)
    (hm0 : RuleMatches r0 t) (hm : RuleMatches r (t ++ x)) (ht : t ≠ []) (hx : x ≠ []) :
    r0.kind.closed = false ∧
    (r0.kind = .singleLineComment → x = ['\n'] ∧ ∃ y, t = y ++ ['\r']) ∧
    (r0.kind = .emptyComment → ∃ y, x = y ++ ['*', '/']) ∧
    (r0.kind ≠ .singleLineComment → r0.kind ≠ .emptyComment → ∀ c ∈ t ++ x, c ∉ sepChars) := by
  obtain ⟨a, t', rfl⟩ : ∃ a t', t = a :: t' := by
    cases t with
    | nil => exact absurd rfl ht
    | cons a t' => exact ⟨a, t', rfl⟩
  obtain ⟨b, x', rfl⟩ : ∃ b x', x = b :: x' := by
    cases x with
    | nil => exact absurd rfl hx
    | cons b x' => exact ⟨b, x', rfl⟩
  have notSingle : ¬ ∃ c, (a :: t') ++ b :: x' = [c] := by
    rintro ⟨c, e⟩
    rw [List.cons_append] at e
    injection e with _ e
    exact absurd e (by simp)
  have starts := match_start hr hm.1
  have lazyStop : r = r0 → r0.isLazy = true → False := by
    rintro rfl hl
    exact hm.2 hl _ (List.prefix_append _ _) (by simp) hm0.1
  -- a longer match that begins with a character other than `/` and `"` is a word
  have wordOf : a ≠ '/' → a ≠ '"' → ∀ c ∈ (a :: t') ++ b :: x', c ∉ sepChars := by
    intro h1 h2
    rcases starts with ⟨_, h⟩ | h | ⟨_, y, e⟩ | ⟨_, y, e⟩
    · exact h
    · exact absurd h notSingle
    · rw [List.cons_append] at e; injection e with e _; exact absurd e h1
    · rw [List.cons_append] at e; injection e with e _; exact absurd e h2
  have nosep : (∀ c ∈ (a :: t') ++ b :: x', c ∉ sepChars) → a ∉ sepChars :=
    fun h => h a (by simp)
  rcases mem_lexRules h0 with h | rfl | rfl | ⟨c, hc, rfl⟩ | h
  · -- a word
    have ha := word_no_sep h0 h hm0.1 a (by simp)
    have hw := wordOf (fun e => ha (by rw [e]; decide)) (fun e => ha (by rw [e]; decide))
    unfold LexRule.isWord at h
    cases hk : r0.kind with
    | kw w => exact ⟨rfl, by simp, by simp, fun _ _ => hw⟩
    | int => exact ⟨rfl, by simp, by simp, fun _ _ => hw⟩
    | float => exact ⟨rfl, by simp, by simp, fun _ _ => hw⟩
    | ident => exact ⟨rfl, by simp, by simp, fun _ _ => hw⟩
    | _ => rw [hk] at h; cases h
  · -- U+001A
    have e := matches_lit.mp hm0.1
    injection e with e _
    subst e
    have hw := wordOf (by decide) (by decide)
    exact ⟨rfl, by simp [subRule], by simp [subRule], fun _ _ => hw⟩
  · -- white space
    obtain ⟨c, e, hc⟩ := matches_chr.mp hm0.1
    injection e with e _
    subst e
    have hmem : a ∈ (['\t', '\n', '\x0c', '\r', ' '] : List Char) := by simpa using hc
    have hs : a ∈ sepChars ∧ a ≠ '/' ∧ a ≠ '"' := by
      simp only [List.mem_cons, List.not_mem_nil, or_false] at hmem
      rcases hmem with rfl | rfl | rfl | rfl | rfl <;> decide
    exact absurd hs.1 (nosep (wordOf hs.2.1 hs.2.2))
  · -- a sign
    have e := matches_lit.mp hm0.1
    injection e with e _
    subst e
    have hall : lexSigns.all (fun c => c != '/' && c != '"' &&
        (c == '-' || c == '.' || sepChars.contains c)) = true := by decide +kernel
    have hs := List.all_eq_true.mp hall a hc
    simp only [Bool.and_eq_true, bne_iff_ne, Bool.or_eq_true, beq_iff_eq, List.contains_iff_mem]
      at hs
    have hw := wordOf hs.1.1 hs.1.2
    refine ⟨?_, by simp, by simp, fun _ _ => hw⟩
    rcases hs.2 with (rfl | rfl) | h
    · rfl
    · rfl
    · exact absurd h (nosep hw)
  · -- comments and strings
    have slash : a = '/' → (r = docRule ∨ r = emptyRule ∨ r = blockRule ∨ r = lineRule) := by
      rintro rfl
      rcases starts with ⟨_, h⟩ | h | ⟨h, _⟩ | ⟨_, y, e⟩
      · exact absurd (h '/' (by simp)) (fun h => h (by decide))
      · exact absurd h notSingle
      · exact h
      · rw [List.cons_append] at e; injection e with e _; exact absurd e (by decide)
    rcases h with rfl | rfl | rfl | rfl | rfl
    · -- a doc comment
      exfalso
      obtain ⟨y, e⟩ := doc_matches.mp hm0.1
      have ha : a = '/' := by simp only [List.cons_append] at e; injection e
      rcases slash ha with rfl | rfl | rfl | rfl
      · exact lazyStop rfl rfl
      · have e2 := empty_matches.mp hm.1
        have := congrArg List.length e
        have := congrArg List.length e2
        simp at *
        omega
      · obtain ⟨c, z, e2, hc⟩ := block_matches.mp hm.1
        rw [e] at e2
        simp only [List.cons_append, List.cons.injEq, true_and] at e2
        exact hc e2.1.symm
      · obtain ⟨z, _, e2, _⟩ := line_matches.mp hm.1
        rw [e] at e2
        simp at e2
    · -- the empty comment
      have e := empty_matches.mp hm0.1
      have ha : a = '/' := by injection e
      refine ⟨rfl, by simp [emptyRule], fun _ => ?_, by simp [emptyRule]⟩
      rcases slash ha with rfl | rfl | rfl | rfl
      · obtain ⟨y, e2⟩ := doc_matches.mp hm.1
        rw [e] at e2
        simp only [List.cons_append, List.nil_append, List.cons.injEq, true_and] at e2
        cases y with
        | nil => simp at e2
        | cons d y =>
          rw [List.cons_append] at e2
          injection e2 with _ e2
          exact ⟨y, e2⟩
      · have e2 := empty_matches.mp hm.1
        rw [e] at e2
        simp at e2
      · obtain ⟨c, z, e2, hc⟩ := block_matches.mp hm.1
        rw [e] at e2
        simp only [List.cons_append, List.cons.injEq, true_and] at e2
        exact absurd e2.1.symm hc
      · obtain ⟨z, _, e2, _⟩ := line_matches.mp hm.1
        rw [e] at e2
        simp at e2
    · -- a block comment
      exfalso
      obtain ⟨c, y, e, hc⟩ := block_matches.mp hm0.1
      have ha : a = '/' := by simp only [List.cons_append] at e; injection e
      rcases slash ha with rfl | rfl | rfl | rfl
      · obtain ⟨z, e2⟩ := doc_matches.mp hm.1
        rw [e] at e2
        simp only [List.cons_append, List.cons.injEq, true_and] at e2
        exact hc e2.1
      · have e2 := empty_matches.mp hm.1
        rw [e] at e2
        simp only [List.cons_append, List.cons.injEq, true_and] at e2
        exact hc e2.1
      · exact lazyStop rfl rfl
      · obtain ⟨z, _, e2, _⟩ := line_matches.mp hm.1
        rw [e] at e2
        simp at e2
    · -- a line comment
      obtain ⟨y, e, he, hy, hcases⟩ := line_matches.mp hm0.1
      have ha : a = '/' := by simp only [List.cons_append] at he; injection he
      refine ⟨rfl, fun _ => ?_, by simp [lineRule], by simp [lineRule]⟩
      rcases slash ha with rfl | rfl | rfl | rfl
      · obtain ⟨z, e2⟩ := doc_matches.mp hm.1
        rw [he] at e2
        simp at e2
      · have e2 := empty_matches.mp hm.1
        rw [he] at e2
        simp at e2
      · obtain ⟨c, z, e2, hc⟩ := block_matches.mp hm.1
        rw [he] at e2
        simp at e2
      · obtain ⟨z, e', e2, hz, hcases'⟩ := line_matches.mp hm.1
        rw [he]
        rw [he] at e2
        simp only [List.cons_append, List.append_assoc, List.cons.injEq, true_and] at e2
        have hne : ∀ {e : List Char} (r : List Char),
            (e = ['\n'] ∨ e = ['\r'] ∨ e = ['\r', '\n']) →
            ∃ d q, e ++ r = d :: q ∧ ¬ (d ≠ '\n' ∧ d ≠ '\r') := by
          intro e r h
          rcases h with rfl | rfl | rfl
          · exact ⟨_, _, rfl, by simp⟩
          · exact ⟨_, _, rfl, by simp⟩
          · exact ⟨_, _, rfl, by simp⟩
        have e3 := span_unique hy hz (hne (b :: x') hcases)
          (by simpa using hne [] hcases') e2
        rcases hcases with rfl | rfl | rfl <;> rcases hcases' with rfl | rfl | rfl
        all_goals
          simp only [List.cons_append, List.nil_append, List.cons.injEq, true_and, reduceCtorEq,
            and_false, Char.reduceEq, false_and] at e3
        obtain ⟨rfl, rfl⟩ := e3
        exact ⟨rfl, '/' :: '/' :: y, by simp⟩
    · -- a string
      exfalso
      obtain ⟨y, e⟩ := string_matches hm0.1
      injection e with e _
      subst e
      rcases starts with ⟨_, h⟩ | h | ⟨_, y, e⟩ | ⟨h, _⟩
      · exact absurd (h '"' (by simp)) (fun h => h (by decide))
      · exact absurd h notSingle
      · rw [List.cons_append] at e; injection e with e _; exact absurd e (by decide)
      · exact lazyStop h rfl

end Avdl
