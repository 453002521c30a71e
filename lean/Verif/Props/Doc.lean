import Verif.Lemmas.Doc
/-!
# C31: doc comment clean-up keeps the text

`docText` is the documentation the tool attaches for a comment token
(/repo/src/doc_comments.rs 71-82).
-/

namespace Avdl.Props
open Avdl DocSpec

/-- The characters Unicode calls white space (property `White_Space`): tab to carriage return,
space, next line, no-break space, Ogham space mark, en quad to hair space, line separator,
paragraph separator, narrow no-break space, medium mathematical space, ideographic space. -/
def unicodeWhiteSpace : List Nat :=
  [0x9, 0xA, 0xB, 0xC, 0xD, 0x20, 0x85, 0xA0, 0x1680, 0x2000, 0x2001, 0x2002, 0x2003, 0x2004,
   0x2005, 0x2006, 0x2007, 0x2008, 0x2009, 0x200A, 0x2028, 0x2029, 0x202F, 0x205F, 0x3000]

/-- C31, C50.  What counts as white space around documentation and in syntax error messages is
what Unicode says. -/
theorem C31_white_space (c : Char) : isWhitespace c = true ↔ c.toNat ∈ unicodeWhiteSpace := by
  simp only [isWhitespace, unicodeWhiteSpace, List.mem_cons, List.not_mem_nil, or_false,
    Bool.or_eq_true, Bool.and_eq_true, decide_eq_true_eq, beq_iff_eq, Bool.not_eq_true',
    decide_eq_false_iff_not]
  omega

example : isWhitespace '\u0085' = true ∧ isWhitespace '\u200b' = false := by decide

/-- C31.  The documentation of `/**body*/` is a clean-up of the body without surrounding white
space: one star decoration removed throughout, or one common indentation, or nothing. -/
theorem C31_cleanup (body : List Char) (doc : String)
    (h : docText (String.ofList (['/', '*', '*'] ++ body ++ ['*', '/'])) = some doc) :
    ∃ core, core ≠ [] ∧ Core White body core ∧ Cleaned White core doc.toList := by
  simp only [docText, String.toList_ofList, commentBody_delimited] at h
  split at h
  · cases h
  · rename_i hne
    injection h with h
    refine ⟨trim body, fun e => hne (by rw [e]; rfl), trim_core body, ?_⟩
    rw [← h, String.toList_ofList]
    exact stripIndents_spec _

example : docText "/** * First\n * Second */" = some "First\nSecond" := by decide
example : docText "/** First\n      Second\n        Third */" = some "First\nSecond\n  Third" := by
  decide
example : docText "/** First\n \r\n \rSecond\n \r\n */" = some "First\n\nSecond" := by decide

/-- C31.  A comment has no documentation exactly if its body is white space. -/
theorem C31_empty (body : List Char) :
    docText (String.ofList (['/', '*', '*'] ++ body ++ ['*', '/'])) = none ↔
      ∀ c ∈ body, White c := by
  simp only [docText, String.toList_ofList, commentBody_delimited]
  constructor
  · intro h
    split at h
    · rename_i he; exact trim_empty he
    · cases h
  · intro h
    have : trim body = [] := by
      have h1 : trimStart body = [] := by
        have := dropWhile_all (p := isWhitespace) body [] h
        simpa [trimStart] using this
      simp [trim, h1, trimEnd]
    simp [this]

example : docText "/** \n\t */" = none := by decide

/-- The number of line breaks. -/
def breaks (t : List Char) : Nat := t.count '\n'

theorem lineWise_breaks {R R0 : List Char → List Char → Prop} {t t' : List Char}
    (h : LineWise R R0 t t') (hR : ∀ a a', R a a' → ∃ d, a = d ++ a')
    (h0 : ∀ a a', R0 a a' → ∃ d, a = d ++ a') : breaks t' = breaks t := by
  induction h with
  | last hn hr =>
    obtain ⟨d, rfl⟩ := h0 _ _ hr
    simp only [List.mem_append, not_or] at hn
    simp [breaks, List.count_append, List.count_eq_zero.mpr hn.1]
  | more hn hr _ _ ih =>
    obtain ⟨d, rfl⟩ := h0 _ _ hr
    simp only [List.mem_append, not_or] at hn
    have := ih hR
    simp only [breaks] at this ⊢
    simp [List.count_append, List.count_eq_zero.mpr hn.1, this]

theorem oneBlankLess_suffix {r r' : List Char} (h : OneBlankLess r r') : ∃ d, r = d ++ r' := by
  rcases h with ⟨b, _, rfl⟩ | ⟨rfl, _⟩
  · exact ⟨[b], rfl⟩
  · exact ⟨[], rfl⟩

/-- C31.  Clean-up keeps the number of lines. -/
theorem C31_line_count (body : List Char) (doc : String)
    (h : docText (String.ofList (['/', '*', '*'] ++ body ++ ['*', '/'])) = some doc) :
    ∃ core, Core White body core ∧ breaks doc.toList = breaks core := by
  obtain ⟨core, _, hc, hcl⟩ := C31_cleanup body doc h
  refine ⟨core, hc, ?_⟩
  cases hcl with
  | stars s _ hl =>
    refine lineWise_breaks hl ?_ ?_
    · rintro a a' (⟨_, rfl⟩ | ⟨ws, r, _, rfl, hr⟩)
      · exact ⟨[], rfl⟩
      · obtain ⟨d, rfl⟩ := oneBlankLess_suffix hr
        exact ⟨ws ++ s ++ d, by simp [List.append_assoc]⟩
    · rintro a a' ⟨r, rfl, hr⟩
      obtain ⟨d, rfl⟩ := oneBlankLess_suffix hr
      exact ⟨s ++ d, by simp [List.append_assoc]⟩
  | indent i _ _ hl =>
    refine lineWise_breaks hl ?_ ?_
    · rintro a a' (rfl | ⟨_, rfl⟩)
      · exact ⟨i, rfl⟩
      · exact ⟨[], rfl⟩
    · rintro a a' rfl; exact ⟨[], rfl⟩
  | same he => rw [he]

/-- A comment in the usual style: every line after `indent`, a star and a space. -/
def usualStyle (indent first : List Char) (rest : List (List Char)) : List Char :=
  '\n' :: indent ++ ['*', ' '] ++ first ++
    (rest.flatMap fun l => '\n' :: indent ++ ['*', ' '] ++ l) ++ '\n' :: indent

/-- C31.  The documentation of a comment in the usual style is exactly its text. -/
theorem C31_usual_style (indent first : List Char) (rest : List (List Char))
    (hi : ∀ c ∈ indent, Blank c)
    (hl : ∀ l ∈ first :: rest, ∀ c ∈ l, c ≠ '\n' ∧ c ≠ '\r')
    (hlast : ∀ c t, first ++ rest.flatMap (fun l => '\n' :: indent ++ ['*', ' '] ++ l) = t ++ [c] →
      ¬ White c)
    (hne : first ++ rest.flatMap (fun l => '\n' :: indent ++ ['*', ' '] ++ l) ≠ []) :
    docText (String.ofList (['/', '*', '*'] ++ usualStyle indent first rest ++ ['*', '/'])) =
      some (String.ofList (first ++ rest.flatMap fun l => '\n' :: l)) := by
  have hblank : ∀ c, Blank c → White c := by
    rintro c (rfl | rfl) <;> decide
  have hblk : ∀ c, Blank c → c ≠ '\n' ∧ c ≠ '\r' := by
    rintro c (rfl | rfl) <;> decide
  let pre := rest.map fun l => indent ++ ['*', ' '] ++ l
  have hjoin : ∀ x : List Char,
      x ++ rest.flatMap (fun l => '\n' :: indent ++ ['*', ' '] ++ l) =
        joinLines x (pre.map fun l => (['\n'], l)) := by
    intro x; simp [joinLines, pre, List.flatMap_map]
  have hcore : trim (usualStyle indent first rest) =
      joinLines (['*', ' '] ++ first) (pre.map fun l => (['\n'], l)) := by
    rw [← hjoin]
    refine trim_eq ⟨⟨'\n' :: indent, '\n' :: indent, ?_, ?_, ?_⟩, ?_, ?_⟩ (by simp)
    · simp [usualStyle, List.append_assoc]
    · intro c hc
      rcases List.mem_cons.mp hc with h | h
      · subst h; decide
      · exact hblank c (hi c h)
    · intro c hc
      rcases List.mem_cons.mp hc with h | h
      · subst h; decide
      · exact hblank c (hi c h)
    · intro c r h; injection h with h _; subst h; decide
    · intro c t h
      rcases List.eq_nil_or_concat
        (first ++ rest.flatMap fun l => '\n' :: indent ++ ['*', ' '] ++ l) with e | ⟨t', c', e⟩
      · exact absurd e hne
      · rw [List.append_assoc, e, List.concat_eq_append, ← List.append_assoc] at h
        have := (List.append_inj' h rfl).2
        injection this with this _; subst this
        exact hlast c' t' (by rw [e, List.concat_eq_append])
  have hpre : ∀ l ∈ pre, ∀ c ∈ l, c ≠ '\n' ∧ c ≠ '\r' := by
    intro l hp c hc
    obtain ⟨m, hm, rfl⟩ := List.mem_map.mp hp
    rcases List.mem_append.mp hc with h | h
    · rcases List.mem_append.mp h with h | h
      · exact hblk c (hi c h)
      · rcases List.mem_cons.mp h with h | h
        · subst h; decide
        · rw [List.mem_singleton.mp h]; decide
    · exact hl m (List.mem_cons_of_mem _ hm) c h
  have hfirst : ∀ c ∈ ['*', ' '] ++ first, c ≠ '\n' ∧ c ≠ '\r' := by
    intro c hc
    rcases List.mem_append.mp hc with h | h
    · rcases List.mem_cons.mp h with h | h
      · subst h; decide
      · rw [List.mem_singleton.mp h]; decide
    · exact hl first (List.mem_cons_self ..) c h
  have hbr := breakLines_join pre (['*', ' '] ++ first) hfirst hpre
  have hind : ∀ l : List Char, (indent ++ ['*', ' '] ++ l).dropWhile isBlank = '*' :: ' ' :: l := by
    intro l
    rw [List.append_assoc, dropWhile_all _ _ fun c hc => (blank_iff c).mpr (hi c hc)]
    exact List.dropWhile_cons_of_neg (by decide)
  have hcr : ∀ l : List Char, (∀ c ∈ l, c ≠ '\n' ∧ c ≠ '\r') → noStrayCr l = true := by
    intro l h; simp only [noStrayCr, List.all_eq_true, decide_eq_true_eq]
    exact fun c hc => (h c hc).2
  have hv2 : starValidate ['*', '*']
      (joinLines (['*', ' '] ++ first) (pre.map fun l => (['\n'], l))) = false := by
    simp only [starValidate, hbr]; rfl
  have hv1 : starValidate ['*']
      (joinLines (['*', ' '] ++ first) (pre.map fun l => (['\n'], l))) = true := by
    simp only [starValidate, hbr, Bool.and_eq_true, List.all_eq_true, Bool.or_eq_true]
    refine ⟨⟨by simp [stripPrefix], hcr _ hfirst⟩, fun l hm => ?_⟩
    obtain ⟨m, hp, rfl⟩ := List.mem_map.mp hm
    refine ⟨hcr _ (hpre m hp), Or.inr ?_⟩
    obtain ⟨n, _, rfl⟩ := List.mem_map.mp hp
    simp only [starLine, hind]; rfl
  have hstrip : starReplace ['*']
      (joinLines (['*', ' '] ++ first) (pre.map fun l => (['\n'], l))) =
      first ++ rest.flatMap fun l => '\n' :: l := by
    have hs : ∀ l : List Char, starStripLine ['*'] (indent ++ ['*', ' '] ++ l) = l := by
      intro l; simp only [starStripLine, hind]; rfl
    have hm : (pre.map fun l => (['\n'], l)).map (fun l => (l.1, starStripLine ['*'] l.2)) =
        rest.map fun l => (['\n'], l) := by
      simp only [pre, List.map_map]
      exact List.map_congr_left fun l _ => by simp only [Function.comp, hs]
    simp only [starReplace, hbr, hm]
    simp [starStripFirst, stripPrefix, dropOneBlank, isBlank, joinLines, List.flatMap_map]
  simp only [docText, String.toList_ofList, commentBody_delimited, hcore, stripIndents, hv2, hv1,
    hstrip]
  simp [joinLines]

example : docText (String.ofList (['/', '*', '*'] ++
    usualStyle [' '] "A list:".toList [[], "* one".toList, "  two".toList] ++ ['*', '/'])) =
    some "A list:\n\n* one\n  two" := by decide

/-- Finding.  Stars that are text are taken for decoration: emphasis at the start of a one-line
comment loses its opening stars. -/
theorem C31_emphasis_lost : docText "/** **bold** text */" = some "bold** text" := by decide

end Avdl.Props
