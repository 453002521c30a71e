import Verif.DocComments
import Verif.Spec.Doc
/-! # Lemmas about doc comment clean-up -/

namespace Avdl
open DocSpec

/-- White space as the code tests it. -/
def White (c : Char) : Prop := isWhitespace c = true

instance (c : Char) : Decidable (White c) := inferInstanceAs (Decidable (_ = _))

theorem blank_iff (c : Char) : isBlank c = true ↔ Blank c := by
  simp only [isBlank, Blank, Bool.or_eq_true, beq_iff_eq]
  exact Or.comm

theorem stripPrefix_some {p cs r : List Char} : stripPrefix p cs = some r ↔ cs = p ++ r := by
  induction p generalizing cs with
  | nil => simp [stripPrefix]
  | cons a as ih =>
    cases cs with
    | nil => simp [stripPrefix]
    | cons c cs =>
      simp only [stripPrefix]
      split
      · rename_i h; subst h; simp [ih]
      · rename_i h
        simp only [List.cons_append, List.cons.injEq, reduceCtorEq, false_iff]
        exact fun hc => h hc.1.symm

theorem joinLines_cons (first b l : List Char) (rest : List (List Char × List Char)) :
    joinLines first ((b, l) :: rest) = first ++ b ++ joinLines l rest := by
  simp [joinLines, List.append_assoc]

theorem join_breakLines (t : List Char) :
    joinLines (breakLines t).1 (breakLines t).2 = t := by
  fun_induction breakLines t with
  | case1 => rfl
  | case2 cs ih => rw [joinLines_cons, ih]; rfl
  | case3 cs ih => rw [joinLines_cons, ih]; rfl
  | case4 c cs _ _ ih => simpa [joinLines] using ih

theorem breakLines_line (t : List Char) : '\n' ∉ (breakLines t).1 ∧
    ∀ l ∈ (breakLines t).2, Break l.1 ∧ '\n' ∉ l.2 := by
  fun_induction breakLines t with
  | case1 => simp
  | case2 cs ih =>
    refine ⟨by simp, fun l hl => ?_⟩
    rcases List.mem_cons.mp hl with h | h
    · subst h; exact ⟨Or.inr rfl, ih.1⟩
    · exact ih.2 l h
  | case3 cs ih =>
    refine ⟨by simp, fun l hl => ?_⟩
    rcases List.mem_cons.mp hl with h | h
    · subst h; exact ⟨Or.inl rfl, ih.1⟩
    · exact ih.2 l h
  | case4 c cs _ hn ih =>
    refine ⟨fun h => ?_, ih.2⟩
    rcases List.mem_cons.mp h with h | h
    · exact hn h.symm
    · exact ih.1 h

theorem lineWise_join {R R0 : List Char → List Char → Prop} (f : List Char → List Char)
    (rest : List (List Char × List Char)) (first first' : List Char)
    (hf : '\n' ∉ first) (h0 : R0 first first')
    (hr : ∀ l ∈ rest, Break l.1 ∧ '\n' ∉ l.2) (h : ∀ l ∈ rest, R l.2 (f l.2)) :
    LineWise R R0 (joinLines first rest)
      (joinLines first' (rest.map fun l => (l.1, f l.2))) := by
  induction rest generalizing first first' R0 with
  | nil => simpa [joinLines] using LineWise.last hf h0
  | cons l rest ih =>
    obtain ⟨b, l⟩ := l
    rw [List.map_cons, joinLines_cons, joinLines_cons]
    have hb := hr (b, l) (List.mem_cons_self ..)
    exact .more hf h0 hb.1 (ih l (f l) hb.2 (h (b, l) (List.mem_cons_self ..))
      (fun l hl => hr l (List.mem_cons_of_mem _ hl)) fun l hl => h l (List.mem_cons_of_mem _ hl))

/-- The same on the lines of a text. -/
theorem lineWise_break {R R0 : List Char → List Char → Prop} (f : List Char → List Char)
    (t first' : List Char) (h0 : R0 (breakLines t).1 first')
    (h : ∀ l ∈ (breakLines t).2, R l.2 (f l.2)) :
    LineWise R R0 t (joinLines first' ((breakLines t).2.map fun l => (l.1, f l.2))) := by
  have := lineWise_join (R := R) (R0 := R0) f (breakLines t).2 (breakLines t).1 first'
    (breakLines_line t).1 h0 (breakLines_line t).2 h
  rwa [join_breakLines] at this

theorem dropOneBlank_spec (r : List Char) : OneBlankLess r (dropOneBlank r) := by
  cases r with
  | nil => exact Or.inr ⟨rfl, fun _ _ h => nomatch h⟩
  | cons c cs =>
    simp only [dropOneBlank]
    split
    · rename_i h; exact Or.inl ⟨c, (blank_iff c).mp h, rfl⟩
    · rename_i h
      refine Or.inr ⟨rfl, fun b rest he hb => h ?_⟩
      injection he with he _; subst he; exact (blank_iff _).mpr hb

theorem starFirst_spec {stars line : List Char} (h : (stripPrefix stars line).isSome = true) :
    StarFirst stars line (starStripFirst stars line) := by
  obtain ⟨r, hr⟩ := Option.isSome_iff_exists.mp h
  refine ⟨r, stripPrefix_some.mp hr, ?_⟩
  simp only [starStripFirst, hr]; exact dropOneBlank_spec r

theorem mem_takeWhile_imp' {p : Char → Bool} {l : List Char} {c : Char}
    (h : c ∈ l.takeWhile p) : p c = true := by
  induction l with
  | nil => simp at h
  | cons a as ih =>
    by_cases ha : p a = true
    · rw [List.takeWhile_cons_of_pos ha] at h
      rcases List.mem_cons.mp h with h | h
      · subst h; exact ha
      · exact ih h
    · rw [List.takeWhile_cons_of_neg ha] at h; simp at h

theorem starLine_spec {stars line : List Char}
    (h : isBlankLine line = true ∨ starLine stars line = true) :
    StarLine stars line (starStripLine stars line) := by
  by_cases hb : starLine stars line = true
  · obtain ⟨r, hr⟩ := Option.isSome_iff_exists.mp hb
    refine Or.inr ⟨line.takeWhile isBlank, r,
      fun c hc => (blank_iff c).mp (mem_takeWhile_imp' hc), ?_, ?_⟩
    · rw [List.append_assoc, ← stripPrefix_some.mp hr, List.takeWhile_append_dropWhile]
    · simp only [starStripLine, hr]; exact dropOneBlank_spec r
  · have hl : isBlankLine line = true := h.resolve_right hb
    refine Or.inl ⟨fun c hc => (blank_iff c).mp (List.all_eq_true.mp hl c hc), ?_⟩
    have : stripPrefix stars (line.dropWhile isBlank) = none := by
      simpa [starLine] using hb
    simp only [starStripLine, this]

theorem starReplace_spec {stars t : List Char}
    (h : starValidate stars t = true) :
    LineWise (StarLine stars) (StarFirst stars) t (starReplace stars t) := by
  simp only [starValidate, Bool.and_eq_true, List.all_eq_true, Bool.or_eq_true] at h
  exact lineWise_break _ _ _ (starFirst_spec h.1.1) fun l hl => starLine_spec (h.2 l hl).2

theorem commonPrefix_left (a b : List Char) : ∃ r, a = commonPrefix a b ++ r := by
  induction a generalizing b with
  | nil => exact ⟨[], by cases b <;> rfl⟩
  | cons x xs ih =>
    cases b with
    | nil => exact ⟨x :: xs, rfl⟩
    | cons y ys =>
      simp only [commonPrefix]
      split
      · obtain ⟨r, hr⟩ := ih ys
        exact ⟨r, by rw [List.cons_append, ← hr]⟩
      · exact ⟨x :: xs, rfl⟩

theorem commonPrefix_right (a b : List Char) : ∃ r, b = commonPrefix a b ++ r := by
  induction a generalizing b with
  | nil => exact ⟨b, by cases b <;> rfl⟩
  | cons x xs ih =>
    cases b with
    | nil => exact ⟨[], rfl⟩
    | cons y ys =>
      simp only [commonPrefix]
      split
      · rename_i h; subst h
        obtain ⟨r, hr⟩ := ih ys
        exact ⟨r, by rw [List.cons_append, ← hr]⟩
      · exact ⟨y :: ys, rfl⟩

theorem trim_empty {l : List Char} (h : (trim l).isEmpty = true) : ∀ c ∈ l, White c := by
  have h1 : trim l = [] := List.isEmpty_iff.mp h
  simp only [trim, trimEnd, List.reverse_eq_nil_iff] at h1
  intro c hc
  have hmem : ∀ (m : List Char), m.dropWhile isWhitespace = [] → ∀ c ∈ m, White c := by
    intro m
    induction m with
    | nil => simp
    | cons a as ih =>
      intro hm c hc
      by_cases ha : isWhitespace a = true
      · rw [List.dropWhile_cons_of_pos ha] at hm
        rcases List.mem_cons.mp hc with h | h
        · subst h; exact ha
        · exact ih hm c h
      · rw [List.dropWhile_cons_of_neg ha] at hm; simp at hm
  have h2 := hmem _ h1
  rw [← List.takeWhile_append_dropWhile (p := isWhitespace) (l := l)] at hc
  rcases List.mem_append.mp hc with h | h
  · exact mem_takeWhile_imp' h
  · exact h2 c (List.mem_reverse.mpr h)

/-- The common indent is white space, is a prefix of the accumulator, and of every line that is
not all white space. -/
theorem commonIndent_spec (ls : List (List Char)) (acc : Option (List Char)) (i : List Char)
    (hacc : ∀ a, acc = some a → ∀ c ∈ a, White c) (h : commonIndent acc ls = some i) :
    (∀ c ∈ i, White c) ∧ (∀ a, acc = some a → ∃ r, a = i ++ r) ∧
      ∀ l ∈ ls, (∃ r, l = i ++ r) ∨ ∀ c ∈ l, White c := by
  induction ls generalizing acc with
  | nil =>
    simp only [commonIndent] at h
    exact ⟨hacc i h, fun a ha => ⟨[], by rw [h] at ha; injection ha with ha; simp [ha]⟩,
      fun l hl => nomatch hl⟩
  | cons l ls ih =>
    simp only [commonIndent] at h
    have hind : ∀ c ∈ indentOf l, White c := fun c hc => mem_takeWhile_imp' hc
    have hl : ∃ r, l = indentOf l ++ r :=
      ⟨l.dropWhile isWhitespace, (List.takeWhile_append_dropWhile).symm⟩
    split at h
    · rename_i ht
      obtain ⟨h1, h2, h3⟩ := ih acc hacc h
      refine ⟨h1, h2, fun m hm => ?_⟩
      rcases List.mem_cons.mp hm with e | e
      · subst e; exact Or.inr (trim_empty ht)
      · exact h3 m e
    · cases acc with
      | none =>
        obtain ⟨h1, h2, h3⟩ := ih _ (fun a ha => by injection ha with ha; subst ha; exact hind) h
        refine ⟨h1, fun a ha => (nomatch ha), fun m hm => ?_⟩
        rcases List.mem_cons.mp hm with e | e
        · subst e
          obtain ⟨r, hr⟩ := h2 _ rfl
          obtain ⟨r', hr'⟩ := hl
          exact Or.inl ⟨r ++ r', by rw [← List.append_assoc, ← hr, ← hr']⟩
        · exact h3 m e
      | some cur =>
        obtain ⟨p, hp⟩ := commonPrefix_left cur (indentOf l)
        obtain ⟨q, hq⟩ := commonPrefix_right cur (indentOf l)
        have hw : ∀ c ∈ commonPrefix cur (indentOf l), White c := fun c hc =>
          hind c (by rw [hq]; exact List.mem_append_left _ hc)
        obtain ⟨h1, h2, h3⟩ := ih _ (fun a ha => by injection ha with ha; subst ha; exact hw) h
        obtain ⟨r, hr⟩ := h2 _ rfl
        refine ⟨h1, fun a ha => ?_, fun m hm => ?_⟩
        · injection ha with ha; subst ha
          exact ⟨r ++ p, by rw [← List.append_assoc, ← hr, ← hp]⟩
        · rcases List.mem_cons.mp hm with e | e
          · subst e
            obtain ⟨r', hr'⟩ := hl
            exact Or.inl ⟨r ++ (q ++ r'), by
              rw [← List.append_assoc, ← hr, ← List.append_assoc, ← hq, ← hr']⟩
          · exact h3 m e

theorem join_cutLines (t : List Char) : joinLines (cutLines t).1 (cutLines t).2 = t := by
  fun_induction cutLines t with
  | case1 => rfl
  | case2 cs ih => rw [joinLines_cons, ih]; rfl
  | case3 c cs _ ih => simpa [joinLines] using ih

theorem cutLines_line (t : List Char) : '\n' ∉ (cutLines t).1 ∧
    ∀ l ∈ (cutLines t).2, Break l.1 ∧ '\n' ∉ l.2 := by
  fun_induction cutLines t with
  | case1 => simp
  | case2 cs ih =>
    refine ⟨by simp, fun l hl => ?_⟩
    rcases List.mem_cons.mp hl with h | h
    · subst h; exact ⟨Or.inl rfl, ih.1⟩
    · exact ih.2 l h
  | case3 c cs hn ih =>
    refine ⟨fun h => ?_, ih.2⟩
    rcases List.mem_cons.mp h with h | h
    · exact hn h.symm
    · exact ih.1 h

/-- The lines cut at `\n` are those cut at `\r?\n`, but for a `\r` at the end. -/
theorem cutLines_breakLines (t : List Char) :
    ((cutLines t).1 = (breakLines t).1 ∨ (cutLines t).1 = (breakLines t).1 ++ ['\r']) ∧
    ∀ l ∈ (cutLines t).2, ∃ m ∈ (breakLines t).2, l.2 = m.2 ∨ l.2 = m.2 ++ ['\r'] := by
  fun_induction breakLines t with
  | case1 => simp [cutLines]
  | case2 cs ih =>
    have e : cutLines ('\r' :: '\n' :: cs) =
        (['\r'], (['\n'], (cutLines cs).1) :: (cutLines cs).2) := by
      rw [cutLines.eq_3 '\r' _ (by decide), cutLines.eq_2]
    rw [e]
    refine ⟨Or.inr rfl, fun l hl => ?_⟩
    rcases List.mem_cons.mp hl with h | h
    · subst h; exact ⟨_, List.mem_cons_self .., ih.1⟩
    · obtain ⟨m, hm, e⟩ := ih.2 l h; exact ⟨m, List.mem_cons_of_mem _ hm, e⟩
  | case3 cs ih =>
    have e : cutLines ('\n' :: cs) = ([], (['\n'], (cutLines cs).1) :: (cutLines cs).2) := by
      rw [cutLines.eq_2]
    rw [e]
    refine ⟨Or.inl rfl, fun l hl => ?_⟩
    rcases List.mem_cons.mp hl with h | h
    · subst h; exact ⟨_, List.mem_cons_self .., ih.1⟩
    · obtain ⟨m, hm, e⟩ := ih.2 l h; exact ⟨m, List.mem_cons_of_mem _ hm, e⟩
  | case4 c cs _ hn ih =>
    rw [cutLines.eq_3 c cs hn]
    refine ⟨?_, ih.2⟩
    rcases ih.1 with e | e
    · exact Or.inl (by rw [e])
    · exact Or.inr (by rw [e]; rfl)

theorem wsIndent_spec {t out : List Char} (h : tryStripWsIndent t = some out) :
    Cleaned White t out := by
  simp only [tryStripWsIndent] at h
  split at h
  · cases h
  · rename_i i hi
    split at h
    · cases h
    · rename_i hne
      injection h with h; subst h
      obtain ⟨h1, _, h3⟩ := commonIndent_spec _ none i (fun a ha => nomatch ha) hi
      have := lineWise_join (R := IndentLine White i) (R0 := fun a a' => a' = a)
        (fun l => (stripPrefix i l).getD l) (cutLines t).2 (cutLines t).1 (cutLines t).1
        (cutLines_line t).1 rfl (cutLines_line t).2 fun l hl => ?_
      · rw [join_cutLines] at this
        exact .indent i (fun e => hne (by rw [e]; rfl)) h1 this
      cases hs : stripPrefix i l.2 with
      | some r => exact Or.inl (by simpa using stripPrefix_some.mp hs)
      | none =>
        refine Or.inr ⟨?_, rfl⟩
        obtain ⟨m, hm, e⟩ := (cutLines_breakLines t).2 l hl
        rcases h3 m.2 (List.mem_map_of_mem hm) with ⟨r, hr⟩ | hw
        · refine absurd hs ?_
          rcases e with e | e
          · rw [stripPrefix_some.mpr (e.trans hr)]; nofun
          · have e' : l.2 = i ++ (r ++ ['\r']) := by rw [e, hr, List.append_assoc]
            rw [stripPrefix_some.mpr e']; nofun
        · rcases e with e | e
          · rw [e]; exact hw
          · rw [e]; intro c hc
            rcases List.mem_append.mp hc with hc | hc
            · exact hw c hc
            · rw [List.mem_singleton.mp hc]; decide

theorem stripIndents_spec (t : List Char) : Cleaned White t (stripIndents t) := by
  unfold stripIndents
  split
  · rename_i h; exact .stars _ (Or.inr rfl) (starReplace_spec h)
  · split
    · rename_i h; exact .stars _ (Or.inl rfl) (starReplace_spec h)
    · split
      · cases h : tryStripWsIndent t with
        | none => exact .same rfl
        | some out => exact wsIndent_spec h
      · exact .same rfl

theorem dropWhile_head {p : Char → Bool} {l : List Char} {c : Char} {r : List Char}
    (h : l.dropWhile p = c :: r) : ¬ p c = true := by
  induction l with
  | nil => simp at h
  | cons a as ih =>
    by_cases ha : p a = true
    · rw [List.dropWhile_cons_of_pos ha] at h; exact ih h
    · rw [List.dropWhile_cons_of_neg ha] at h
      injection h with h _; subst h; exact ha

theorem trim_core (body : List Char) : Core White body (trim body) := by
  have hlast : ∀ c rest, trim body = rest ++ [c] → ¬ White c := by
    intro c rest h
    have : (trim body).reverse = c :: rest.reverse := by rw [h]; simp
    simp only [trim, trimEnd, List.reverse_reverse] at this
    exact dropWhile_head this
  have hs : trimStart body =
      trim body ++ ((trimStart body).reverse.takeWhile isWhitespace).reverse := by
    have := List.takeWhile_append_dropWhile (p := isWhitespace) (l := (trimStart body).reverse)
    have h2 := congrArg List.reverse this
    rw [List.reverse_append, List.reverse_reverse] at h2
    exact h2.symm
  refine ⟨⟨body.takeWhile isWhitespace, ((trimStart body).reverse.takeWhile isWhitespace).reverse,
    ?_, fun c hc => mem_takeWhile_imp' hc, fun c hc => ?_⟩, ?_, hlast⟩
  · rw [List.append_assoc, ← hs]; exact (List.takeWhile_append_dropWhile).symm
  · exact mem_takeWhile_imp' (List.mem_reverse.mp hc)
  · intro c rest h
    cases ht : trimStart body with
    | nil => rw [ht] at hs; rw [h] at hs; simp at hs
    | cons a as =>
      have ha := dropWhile_head ht
      rw [ht, h] at hs
      injection hs with hs _; subst hs; exact ha

theorem commentBody_delimited (body : List Char) :
    commentBody (['/', '*', '*'] ++ body ++ ['*', '/']) = body := by
  have h1 : stripPrefix ['/', '*', '*'] (['/', '*', '*'] ++ body ++ ['*', '/']) =
      some (body ++ ['*', '/']) := stripPrefix_some.mpr (by simp)
  have h2 : stripSuffix ['*', '/'] (body ++ ['*', '/']) = some body := by
    simp only [stripSuffix, List.reverse_append]
    rw [stripPrefix_some.mpr rfl]; simp
  simp only [commentBody, h1, Option.bind_some, h2]

/-- Cutting a text made of lines without line break characters gives the lines back. -/
theorem breakLines_append (a : List Char) (h : ∀ c ∈ a, c ≠ '\n' ∧ c ≠ '\r') (t : List Char) :
    breakLines (a ++ t) = (a ++ (breakLines t).1, (breakLines t).2) := by
  induction a with
  | nil => rfl
  | cons c cs ih =>
    have hc := h c (List.mem_cons_self ..)
    have hi := ih fun c hc => h c (List.mem_cons_of_mem _ hc)
    rw [List.cons_append]
    rw [breakLines.eq_4]
    · rw [hi]; rfl
    · intro cs' he _; exact hc.2 he
    · intro he; exact hc.1 he

theorem breakLines_join (rest : List (List Char)) (first : List Char)
    (hf : ∀ c ∈ first, c ≠ '\n' ∧ c ≠ '\r') (hr : ∀ l ∈ rest, ∀ c ∈ l, c ≠ '\n' ∧ c ≠ '\r') :
    breakLines (joinLines first (rest.map fun l => (['\n'], l))) =
      (first, rest.map fun l => (['\n'], l)) := by
  induction rest generalizing first with
  | nil =>
    have := breakLines_append first hf []
    simpa [joinLines, breakLines] using this
  | cons l ls ih =>
    rw [List.map_cons, joinLines_cons, List.append_assoc, breakLines_append first hf]
    have hl := ih l (hr l (List.mem_cons_self ..)) fun m hm => hr m (List.mem_cons_of_mem _ hm)
    simp [breakLines, hl]

theorem dropWhile_all {p : Char → Bool} (ws t : List Char) (h : ∀ c ∈ ws, p c = true) :
    (ws ++ t).dropWhile p = t.dropWhile p := by
  induction ws with
  | nil => rfl
  | cons a as ih =>
    rw [List.cons_append, List.dropWhile_cons_of_pos (h a (List.mem_cons_self ..))]
    exact ih fun c hc => h c (List.mem_cons_of_mem _ hc)

/-- The core of a text is unique. -/
theorem trim_eq {body core : List Char} (h : Core White body core) (hne : core ≠ []) :
    trim body = core := by
  obtain ⟨b, a, rfl, hb, ha⟩ := h.around
  have h1 : trimStart (b ++ core ++ a) = core ++ a := by
    rw [trimStart, List.append_assoc, dropWhile_all _ _ hb]
    cases hc : core with
    | nil => exact absurd hc hne
    | cons x xs => exact List.dropWhile_cons_of_neg (h.first x xs hc)
  rw [trim, h1, trimEnd, List.reverse_append,
    dropWhile_all _ _ fun c hc => ha c (List.mem_reverse.mp hc)]
  cases hc : core.reverse with
  | nil => exact absurd (List.reverse_eq_nil_iff.mp hc) hne
  | cons x xs =>
    rw [List.dropWhile_cons_of_neg (h.last x xs.reverse (by
      have := congrArg List.reverse hc; simpa using this)), ← hc, List.reverse_reverse]

end Avdl
