import Verif.Args
import Verif.Spec.Args
/-!
# Lemmas on command line arguments
-/

namespace Avdl
open Spec

theorem cutAtEq_spec (cs : List Char) : '=' ∉ (cutAtEq cs).1 ∧
    cs = (cutAtEq cs).1 ++ (match (cutAtEq cs).2 with
      | none => []
      | some v => '=' :: v) := by
  induction cs with
  | nil => simp [cutAtEq]
  | cons c cs ih =>
    by_cases h : c = '='
    · simp [cutAtEq, h]
    · simp only [cutAtEq, h, if_false, List.mem_cons, not_or, List.cons_append]
      exact ⟨⟨fun h' => h h'.symm, ih.1⟩, by rw [← ih.2]⟩

theorem cutAtEq_none {cs : List Char} (h : '=' ∉ cs) : cutAtEq cs = (cs, none) := by
  induction cs with
  | nil => rfl
  | cons c cs ih =>
    simp only [List.mem_cons, not_or] at h
    simp [cutAtEq, ih h.2, Ne.symm h.1]

theorem cutAtEq_some {cs v : List Char} (h : '=' ∉ cs) : cutAtEq (cs ++ '=' :: v) = (cs, some v) := by
  induction cs with
  | nil => simp [cutAtEq]
  | cons c cs ih =>
    simp only [List.mem_cons, not_or] at h
    simp [cutAtEq, ih h.2, Ne.symm h.1]

theorem plain_iff {a : String} : Plain a ↔ a.toList = ['-'] ∨ a.toList.head? ≠ some '-' := by
  unfold Plain
  constructor
  · rintro (rfl | h)
    · exact .inl rfl
    · refine .inr fun he => ?_
      cases hl : a.toList with
      | nil => simp [hl] at he
      | cons c cs =>
        rw [hl] at he
        simp only [List.head?_cons, Option.some.injEq] at he
        subst he
        refine h (String.ofList cs) (String.toList_inj.1 ?_)
        simp [hl]
  · rintro (h | h)
    · exact .inl (String.toList_inj.1 h)
    · refine .inr ?_
      rintro s rfl
      simp at h

/-- How `nextWord` treats an argument. -/
inductive WordCase (a : String) (as : List String) : Option (Arg × ArgParser) → Prop
  | end_ : a = "--" → as = [] → WordCase a as none
  | rest {b bs} : a = "--" → as = b :: bs → WordCase a as (some (.value b, ⟨.finished, bs⟩))
  | plain : Plain a → WordCase a as (some (.value a, ⟨.start, as⟩))
  | short {c s} : c ≠ '-' → a.toList = '-' :: c :: s → WordCase a as (some (.short c, ⟨.shorts s, as⟩))
  | long {n} : n ≠ [] → '=' ∉ n → a.toList = '-' :: '-' :: n →
      WordCase a as (some (.long (String.ofList n), ⟨.start, as⟩))
  | longValue {n v} : '=' ∉ n → a.toList = '-' :: '-' :: n ++ '=' :: v →
      WordCase a as (some (.long (String.ofList n), ⟨.pending v, as⟩))

theorem nextWord_cases (a : String) (as : List String) : WordCase a as (nextWord (a :: as)) := by
  have hs : ∀ s : String, s.toList = ['-', '-'] → s = "--" := fun s h => String.toList_inj.1 h
  simp only [nextWord]
  split
  · rename_i h
    cases as with
    | nil => exact .end_ (hs _ h) rfl
    | cons b bs => exact .rest (hs _ h) rfl
  · rename_i body hne h
    obtain ⟨h1, h2⟩ := cutAtEq_spec body
    cases hv : (cutAtEq body).2 with
    | none =>
      rw [hv] at h2
      simp only [List.append_nil] at h2
      refine .long ?_ h1 (by rw [h]; congr 2)
      intro he
      rw [he] at h2
      subst h2
      exact hne rfl
    | some v =>
      rw [hv] at h2
      simp only at h2
      refine .longValue h1 ?_
      rw [h, List.cons_append, List.cons_append, ← h2]
  · rename_i c cs _ hne h
    refine .short ?_ h
    rintro rfl
    exact hne rfl
  · rename_i h1 h2 h3
    refine .plain (plain_iff.2 ?_)
    cases hl : a.toList with
    | nil => right; simp
    | cons c cs =>
      by_cases hc : c = '-'
      · subst hc
        cases cs with
        | nil => exact .inl rfl
        | cons d ds => exact absurd hl (h3 d ds)
      · right; simpa using hc

theorem nextWord_plain {a : String} (h : Plain a) (as : List String) :
    nextWord (a :: as) = some (.value a, ⟨.start, as⟩) := by
  have h := plain_iff.1 h
  have hc := nextWord_cases a as
  generalize nextWord (a :: as) = r at hc ⊢
  cases hc with
  | end_ h1 _ => subst h1; exact absurd h (by decide)
  | rest h1 _ => subst h1; exact absurd h (by decide)
  | plain _ => rfl
  | short _ h1 => rw [h1] at h; simp at h
  | long _ _ h1 => rw [h1] at h; simp at h
  | longValue _ h1 => rw [h1] at h; simp at h

theorem nextWord_long {a : String} {n : List Char} (h : a.toList = '-' :: '-' :: n) (hn : n ≠ [])
    (he : '=' ∉ n) (as : List String) :
    nextWord (a :: as) = some (.long (String.ofList n), ⟨.start, as⟩) := by
  cases n with
  | nil => exact absurd rfl hn
  | cons c cs =>
    simp only [nextWord, h]
    rw [cutAtEq_none he]
    rfl

theorem nextWord_longValue {a : String} {n v : List Char} (h : a.toList = '-' :: '-' :: n ++ '=' :: v)
    (he : '=' ∉ n) (as : List String) :
    nextWord (a :: as) = some (.long (String.ofList n), ⟨.pending v, as⟩) := by
  have h' : a.toList = '-' :: '-' :: (n ++ '=' :: v) := by rw [h]; rfl
  cases n with
  | nil =>
    simp only [nextWord, h']
    rfl
  | cons c cs =>
    simp only [nextWord, h', List.cons_append]
    rw [← List.cons_append, cutAtEq_some he]
    rfl

theorem nextWord_short {a : String} {c : Char} {s : List Char} (h : a.toList = '-' :: c :: s)
    (hc : c ≠ '-') (as : List String) :
    nextWord (a :: as) = some (.short c, ⟨.shorts s, as⟩) := by
  simp only [nextWord, h]
  split
  · rename_i h'; simp at h'; exact absurd h'.1 hc
  · rename_i h'; simp at h'; exact absurd h'.1 hc
  · rename_i h'
    simp only [List.cons.injEq, true_and] at h'
    obtain ⟨rfl, rfl⟩ := h'
    rfl
  · rename_i h1
    exact absurd rfl (h1 c s)

theorem next_start (args : List String) : ArgParser.next ⟨.start, args⟩ = .ok (nextWord args) := rfl

/-- After `--` everything is positional. -/
theorem argLoop_finished (n : Nat) (args : List String) (h : args.length < n) (ds : List Path)
    (ps : List String) : argLoop n ⟨.finished, args⟩ ds ps = .ok (ds, ps ++ args) := by
  induction n generalizing args ps with
  | zero => omega
  | succ n ih =>
    cases args with
    | nil => simp [argLoop, ArgParser.next]
    | cons a as =>
      simp only [List.length_cons, Nat.add_lt_add_iff_right] at h
      simp only [argLoop, ArgParser.next, ih as h]
      simp

private theorem dir_toList : "--import-dir".toList = '-' :: '-' :: "import-dir".toList := by decide

/-- The loop reads what is said. -/
theorem argLoop_says {args : List String} {D : List Path} {P : List String} (h : Says args D P) :
    ∀ (n : Nat), args.length < n → ∀ (ds : List Path) (ps : List String),
      argLoop n ⟨.start, args⟩ ds ps = .ok (ds ++ D, ps ++ P) := by
  induction h with
  | done =>
    intro n hn ds ps
    cases n with
    | zero => omega
    | succ n => simp [argLoop, next_start, nextWord]
  | rest P =>
    intro n hn ds ps
    cases n with
    | zero => omega
    | succ n =>
      simp only [List.length_cons, Nat.add_lt_add_iff_right] at hn
      cases P with
      | nil => simp [argLoop, next_start, nextWord]
      | cons b bs =>
        simp only [List.length_cons] at hn
        have : nextWord ("--" :: b :: bs) = some (.value b, ⟨.finished, bs⟩) := rfl
        simp only [argLoop, next_start, this, argLoop_finished n bs (by omega)]
        simp
  | dir d _ ih =>
    intro n hn ds ps
    cases n with
    | zero => omega
    | succ n =>
      simp only [List.length_cons, Nat.add_lt_add_iff_right] at hn
      rw [argLoop, next_start, nextWord_long dir_toList (by decide) (by decide)]
      simp only [String.ofList_toList, if_true, ArgParser.value, ih n (by omega)]
      simp
  | dirEq d _ ih =>
    intro n hn ds ps
    cases n with
    | zero => omega
    | succ n =>
      simp only [List.length_cons, Nat.add_lt_add_iff_right] at hn
      rw [argLoop, next_start, nextWord_longValue (n := "import-dir".toList) (v := d.toList)
        (by simp) (by decide)]
      simp only [String.ofList_toList, if_true, ArgParser.value, ih n (by omega)]
      simp
  | plain hp _ ih =>
    intro n hn ds ps
    cases n with
    | zero => omega
    | succ n =>
      simp only [List.length_cons, Nat.add_lt_add_iff_right] at hn
      rw [argLoop, next_start, nextWord_plain hp]
      simp only [ih n (by omega)]
      simp

theorem argLoop_help {args : List String} (h : AsksHelp args) :
    ∀ (n : Nat), args.length < n → ∀ (ds : List Path) (ps : List String),
      argLoop n ⟨.start, args⟩ ds ps = .help := by
  induction h with
  | here as h =>
    intro n hn ds ps
    cases n with
    | zero => omega
    | succ n =>
      cases h with
      | short s =>
        rw [argLoop, next_start, nextWord_short (c := 'h') (s := s.toList) (by simp) (by decide)]
        simp
      | long =>
        rw [argLoop, next_start, nextWord_long (n := "help".toList) (by decide) (by decide)
          (by decide)]
        simp
      | longValue s =>
        rw [argLoop, next_start, nextWord_longValue (n := "help".toList) (v := s.toList)
          (by simp) (by decide)]
        simp
  | dir d _ ih =>
    intro n hn ds ps
    cases n with
    | zero => omega
    | succ n =>
      simp only [List.length_cons, Nat.add_lt_add_iff_right] at hn
      rw [argLoop, next_start, nextWord_long dir_toList (by decide) (by decide)]
      simp only [String.ofList_toList, if_true, ArgParser.value, ih n (by omega)]
  | dirEq d _ ih =>
    intro n hn ds ps
    cases n with
    | zero => omega
    | succ n =>
      simp only [List.length_cons, Nat.add_lt_add_iff_right] at hn
      rw [argLoop, next_start, nextWord_longValue (n := "import-dir".toList) (v := d.toList)
        (by simp) (by decide)]
      simp only [String.ofList_toList, if_true, ArgParser.value, ih n (by omega)]
  | plain hp _ ih =>
    intro n hn ds ps
    cases n with
    | zero => omega
    | succ n =>
      simp only [List.length_cons, Nat.add_lt_add_iff_right] at hn
      rw [argLoop, next_start, nextWord_plain hp]
      simp only [ih n (by omega)]

/-- The outcome of the loop says what the arguments are. -/
theorem argLoop_sound (n : Nat) : ∀ (args : List String), args.length < n →
    ∀ (ds : List Path) (ps : List String),
    match argLoop n ⟨.start, args⟩ ds ps with
    | .ok r => ∃ D P, Says args D P ∧ r = (ds ++ D, ps ++ P)
    | .help => AsksHelp args
    | .error e => e ≠ .timeout := by
  induction n with
  | zero => intro args h; omega
  | succ n ih =>
    intro args hn ds ps
    rw [argLoop, next_start]
    cases args with
    | nil => exact ⟨[], [], .done, by simp⟩
    | cons a as =>
      simp only [List.length_cons, Nat.add_lt_add_iff_right] at hn
      have hc := nextWord_cases a as
      generalize nextWord (a :: as) = r at hc ⊢
      cases hc with
      | end_ h1 h2 => subst h1; subst h2; exact ⟨[], [], .rest [], by simp⟩
      | rest h1 h2 =>
        rename_i b bs
        subst h1; subst h2
        simp only [List.length_cons] at hn
        simp only [argLoop_finished n bs (by omega)]
        exact ⟨[], b :: bs, .rest _, by simp⟩
      | plain hp =>
        have := ih as hn ds (ps ++ [a])
        simp only
        revert this
        cases argLoop n ⟨.start, as⟩ ds (ps ++ [a]) with
        | ok r =>
          rintro ⟨D, P, h1, h2⟩
          exact ⟨D, a :: P, .plain hp h1, by rw [h2]; simp⟩
        | help => exact fun h => .plain hp h
        | error e => exact fun h => h
      | short hc h1 =>
        rename_i c s
        simp only
        by_cases h : c = 'h'
        · subst h
          simp only [if_true]
          have : a = "-h" ++ String.ofList s := String.toList_inj.1 (by simp [h1])
          rw [this]
          exact .here _ (.short _)
        · simp only [h, if_false]
          simp
      | long hn' he h1 =>
        rename_i nm
        simp only
        by_cases h : String.ofList nm = "import-dir"
        · simp only [h, if_true, ArgParser.value]
          have hnm : nm = "import-dir".toList := by rw [← h]; simp
          have ha : a = "--import-dir" := String.toList_inj.1 (by rw [h1, hnm]; rfl)
          subst ha
          cases as with
          | nil => simp
          | cons d as =>
            simp only [List.length_cons] at hn
            have := ih as (by omega) (ds ++ [d]) ps
            simp only
            revert this
            cases argLoop n ⟨.start, as⟩ (ds ++ [d]) ps with
            | ok r =>
              rintro ⟨D, P, h1, h2⟩
              exact ⟨d :: D, P, .dir d h1, by rw [h2]; simp⟩
            | help => exact fun h => .dir d h
            | error e => exact fun h => h
        · by_cases h' : String.ofList nm = "help"
          · have hnm : nm = "help".toList := by rw [← h']; simp
            have ha : a = "--help" := String.toList_inj.1 (by rw [h1, hnm]; rfl)
            subst ha
            simp only [h', if_true]
            exact .here _ .long
          · simp only [h, h', if_false]
            simp
      | longValue he h1 =>
        rename_i nm v
        simp only
        by_cases h : String.ofList nm = "import-dir"
        · simp only [h, if_true, ArgParser.value]
          have hnm : nm = "import-dir".toList := by rw [← h]; simp
          have ha : a = "--import-dir=" ++ String.ofList v :=
            String.toList_inj.1 (by rw [h1, hnm]; simp)
          subst ha
          have := ih as hn (ds ++ [String.ofList v]) ps
          revert this
          cases argLoop n ⟨.start, as⟩ (ds ++ [String.ofList v]) ps with
          | ok r =>
            rintro ⟨D, P, h1, h2⟩
            exact ⟨String.ofList v :: D, P, .dirEq _ h1, by rw [h2]; simp⟩
          | help => exact fun h => .dirEq _ h
          | error e => exact fun h => h
        · by_cases h' : String.ofList nm = "help"
          · have hnm : nm = "help".toList := by rw [← h']; simp
            have ha : a = "--help=" ++ String.ofList v :=
              String.toList_inj.1 (by rw [h1, hnm]; simp)
            subst ha
            simp only [h', if_true]
            exact .here _ (.longValue _)
          · simp only [h, h', if_false]
            simp

end Avdl
