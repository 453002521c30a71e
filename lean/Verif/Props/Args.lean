import Verif.Lemmas.Args
import Verif.Props.Cli
import Verif.Props.Reimport
/-!
# C48: command lines mean what the usual conventions say

The conventions are in `Spec/Args.lean`.
-/

namespace Avdl.Props
open Spec

/-! ### What the arguments of the subcommands are read as -/

theorem parseIdlArgs_says {args : List String} {D : List Path} {P : List String}
    (h : Says args D P) : parseIdlArgs ⟨.start, args⟩ = .ok ⟨P[0]?, P[1]?, D⟩ := by
  unfold parseIdlArgs
  rw [argLoop_says h _ (Nat.lt_succ_self _)]
  simp

theorem parseIdl2schemataArgs_says {args : List String} {D : List Path} {P : List String}
    (h : Says args D P) : parseIdl2schemataArgs ⟨.start, args⟩ =
      match P[0]? with
      | none => .error .missingInput
      | some input => .ok ⟨input, P[1]?, D⟩ := by
  unfold parseIdl2schemataArgs
  rw [argLoop_says h _ (Nat.lt_succ_self _)]
  simp only [List.nil_append]
  cases P[0]? <;> rfl

section
variable [CharTables] [FloatTables] [CaseTables] [JsonFloats]

omit [CharTables] [FloatTables] [CaseTables] [JsonFloats] in
theorem next_names {name : String} {args : List String} (h : Names name args) :
    ∃ p, ArgParser.next ⟨.start, args⟩ = .ok (some (.value name, p)) := by
  cases h with
  | plain as hp => exact ⟨⟨.start, as⟩, by rw [next_start, nextWord_plain hp]⟩
  | dashes as => exact ⟨⟨.finished, as⟩, rfl⟩

/-- **C48, `idl`.** If the command line calls `idl` with import directories `D` and positional
arguments `P`, the process is the run of `idl` with the first of `P` as input, the second as output,
and `D`. -/
theorem C48_idl (w : World) (sh : Shell) (fuel : Nat) {args : List String} {D : List Path}
    {P : List String} (h : Calls "idl" args D P) :
    runMain w sh fuel args = finishRun (runIdl w sh fuel P[0]? P[1]? D) := by
  cases h with
  | plain hp h =>
    unfold runMain
    rw [next_start, nextWord_plain hp]
    simp only [runSubcommand, if_true, parseIdlArgs_says h]
  | dashes P =>
    unfold runMain
    have : ArgParser.next ⟨.start, "--" :: "idl" :: P⟩ = .ok (some (.value "idl", ⟨.finished, P⟩)) :=
      rfl
    rw [this]
    simp only [runSubcommand, if_true, parseIdlArgs, argLoop_finished _ P (Nat.lt_succ_self _)]
    simp

/-- **C48, `idl2schemata`.** As for `idl`, with the output directory as second positional
argument. -/
theorem C48_idl2schemata (w : World) (sh : Shell) (fuel : Nat) {args : List String} {D : List Path}
    {input : String} {P : List String} (h : Calls "idl2schemata" args D (input :: P)) :
    runMain w sh fuel args = finishRun (runIdl2schemata w sh fuel input P[0]? D) := by
  have hne : ("idl2schemata" : String) ≠ "idl" := by decide
  generalize hQ : input :: P = Q at h
  cases h with
  | plain hp h =>
    subst hQ
    unfold runMain
    rw [next_start, nextWord_plain hp]
    simp only [runSubcommand, hne, if_false, if_true, parseIdl2schemataArgs_says h]
    simp
  | dashes Q =>
    subst hQ
    unfold runMain
    have : ArgParser.next ⟨.start, "--" :: "idl2schemata" :: input :: P⟩ =
      .ok (some (.value "idl2schemata", ⟨.finished, input :: P⟩)) := rfl
    rw [this]
    simp only [runSubcommand, hne, if_false, if_true, parseIdl2schemataArgs,
      argLoop_finished _ (input :: P) (Nat.lt_succ_self _)]
    simp

/-- **C48, `idl2schemata` needs an input.** -/
theorem C48_idl2schemata_no_input (w : World) (sh : Shell) (fuel : Nat) {args : List String}
    {D : List Path} (h : Calls "idl2schemata" args D []) :
    runMain w sh fuel args = ⟨1, [.stderr (.badArgument .missingInput)]⟩ := by
  have hne : ("idl2schemata" : String) ≠ "idl" := by decide
  generalize hQ : ([] : List String) = Q at h
  cases h with
  | plain hp h =>
    subst hQ
    unfold runMain
    rw [next_start, nextWord_plain hp]
    simp only [runSubcommand, hne, if_false, if_true, parseIdl2schemataArgs_says h]
    simp
  | dashes Q =>
    subst hQ
    rfl

/-- **C48, help.** A request for help prints the help of the subcommand and does nothing else,
whatever other arguments there are. -/
theorem C48_help (w : World) (sh : Shell) (fuel : Nat) (args : List String) :
    (CallsHelp "idl" args → runMain w sh fuel args = ⟨0, [.stdout (idlHelp ++ "\n")]⟩) ∧
    (CallsHelp "idl2schemata" args →
      runMain w sh fuel args = ⟨0, [.stdout (idl2schemataHelp ++ "\n")]⟩) ∧
    (∀ a as, args = a :: as → HelpWord a →
      runMain w sh fuel args = ⟨0, [.stdout (mainHelp ++ "\n")]⟩) ∧
    (∀ a as, args = a :: as → VersionWord a →
      runMain w sh fuel args = ⟨0, [.stdout "avdl 0.1.10+1.12.1\n"]⟩) := by
  have hne : ("idl2schemata" : String) ≠ "idl" := by decide
  refine ⟨?_, ?_, ?_, ?_⟩
  · rintro ⟨hp, h⟩
    unfold runMain
    rw [next_start, nextWord_plain hp]
    simp only [runSubcommand, if_true, parseIdlArgs, argLoop_help h _ (Nat.lt_succ_self _)]
  · rintro ⟨hp, h⟩
    unfold runMain
    rw [next_start, nextWord_plain hp]
    simp only [runSubcommand, hne, if_false, if_true, parseIdl2schemataArgs,
      argLoop_help h _ (Nat.lt_succ_self _)]
  · rintro a as rfl h
    unfold runMain
    rw [next_start]
    cases h with
    | short s => rw [nextWord_short (c := 'h') (s := s.toList) (by simp) (by decide)]; simp
    | long => rw [nextWord_long (n := "help".toList) (by decide) (by decide) (by decide)]; simp
    | longValue s =>
      rw [nextWord_longValue (n := "help".toList) (v := s.toList) (by simp) (by decide)]; simp
  · rintro a as rfl h
    unfold runMain
    rw [next_start]
    cases h with
    | short s => rw [nextWord_short (c := 'V') (s := s.toList) (by simp) (by decide)]; simp
    | long =>
      rw [nextWord_long (n := "version".toList) (by decide) (by decide) (by decide)]
      simp only [String.ofList_toList]
      rfl
    | longValue s =>
      rw [nextWord_longValue (n := "version".toList) (v := s.toList) (by simp) (by decide)]
      simp only [String.ofList_toList]
      rfl

/-- The effects are messages on standard error. -/
def OnlyMessages (es : List Out) : Prop := ∀ e ∈ es, ∃ m, e = .stderr m

/-- **C48, wrong arguments.** If the command line names `idl` or `idl2schemata`, but neither calls
it nor asks for its help, the process fails with status 1 and changes nothing. -/
theorem C48_wrong_arguments (w : World) (sh : Shell) (fuel : Nat) {args : List String}
    {name : String} (hname : name = "idl" ∨ name = "idl2schemata") (h : Names name args)
    (hc : ∀ D P, ¬ Calls name args D P) (hh : ¬ CallsHelp name args) :
    (runMain w sh fuel args).status = 1 ∧ OnlyMessages (runMain w sh fuel args).effects := by
  have hne : ("idl2schemata" : String) ≠ "idl" := by decide
  cases h with
  | dashes as => exact absurd (Calls.dashes as) (hc _ _)
  | plain as hp =>
    have hs := argLoop_sound (as.length + 1) as (Nat.lt_succ_self _) [] []
    have he : ∃ e, argLoop (as.length + 1) ⟨.start, as⟩ [] [] = .error e := by
      cases hl : argLoop (as.length + 1) ⟨.start, as⟩ [] [] with
      | ok r =>
        rw [hl] at hs
        obtain ⟨D, P, h1, _⟩ := hs
        exact absurd (.plain hp h1) (hc D P)
      | help => rw [hl] at hs; exact absurd (.plain hp hs) hh
      | error e => exact ⟨e, rfl⟩
    obtain ⟨e, he⟩ := he
    unfold runMain
    rw [next_start, nextWord_plain hp]
    rcases hname with rfl | rfl
    · simp only [runSubcommand, if_true, parseIdlArgs, he]
      exact ⟨trivial, fun e h => by simp at h; exact ⟨_, h⟩⟩
    · simp only [runSubcommand, hne, if_false, if_true, parseIdl2schemataArgs, he]
      exact ⟨trivial, fun e h => by simp at h; exact ⟨_, h⟩⟩

/-- The command line asks for general help or the version. -/
inductive General : List String → Prop
  | help {a} (as) : HelpWord a → General (a :: as)
  | version {a} (as) : VersionWord a → General (a :: as)

omit [CharTables] [FloatTables] [CaseTables] [JsonFloats] in
theorem dashes_general : ¬ (HelpWord "--" ∨ VersionWord "--") := by
  rintro (h | h)
  · generalize hx : ("--" : String) = x at h
    cases h with
    | short s => have := congrArg String.toList hx; simp at this
    | long => exact absurd hx (by decide)
    | longValue s => have := congrArg String.toList hx; simp at this
  · generalize hx : ("--" : String) = x at h
    cases h with
    | short s => have := congrArg String.toList hx; simp at this
    | long => exact absurd hx (by decide)
    | longValue s => have := congrArg String.toList hx; simp at this

omit [CharTables] [FloatTables] [CaseTables] [JsonFloats] in
theorem dashes_names {n : String} : ¬ Names n ["--"] := by
  intro h
  generalize hx : ["--"] = x at h
  cases h with
  | plain _ hp =>
    injection hx with hx _
    subst hx
    exact absurd (plain_iff.1 hp) (by decide)
  | dashes _ => injection hx with _ hx; cases hx

omit [CharTables] [FloatTables] [CaseTables] in
theorem finishRun_status (r : Except CliErr Unit × List Effect) :
    ((finishRun r).status = 0 ↔ r.1 = .ok ()) ∧ (finishRun r).status ≠ 2 := by
  unfold finishRun
  rcases r with ⟨_ | _, es⟩ <;> simp

/-- **C48, no subcommand.** The status is 2 exactly if the command line neither names one of the
two subcommands nor asks for general help or the version; then nothing is changed. -/
theorem C48_status_two (w : World) (sh : Shell) (fuel : Nat) (args : List String) :
    ((runMain w sh fuel args).status = 2 ↔
      ¬ Names "idl" args ∧ ¬ Names "idl2schemata" args ∧ ¬ General args) ∧
    ((runMain w sh fuel args).status = 2 → OnlyMessages (runMain w sh fuel args).effects) := by
  have hsub : ∀ name p, ((runSubcommand w sh fuel name p).status = 2 ↔
      name ≠ "idl" ∧ name ≠ "idl2schemata") ∧ ((runSubcommand w sh fuel name p).status = 2 →
      OnlyMessages (runSubcommand w sh fuel name p).effects) := by
    intro name p
    unfold runSubcommand
    by_cases h1 : name = "idl"
    · simp only [h1, if_true]
      cases parseIdlArgs p with
      | ok a =>
        have := (finishRun_status (runIdl w sh fuel a.input a.output a.importDirs)).2
        simp [this]
      | help => simp
      | error e => simp
    · by_cases h2 : name = "idl2schemata"
      · simp only [h2, if_true]
        cases parseIdl2schemataArgs p with
        | ok a =>
          have := (finishRun_status (runIdl2schemata w sh fuel a.input a.outdir a.importDirs)).2
          simp [this]
        | help => simp
        | error e => simp
      · simp only [h1, h2, if_false]
        refine ⟨by simp [h1, h2], fun _ => ?_⟩
        rintro e h
        simp only [List.mem_singleton] at h
        exact ⟨_, h⟩
  have hplain : ∀ {a : String} {as : List String}, Plain a → ∀ {n : String},
      Names n (a :: as) → n = a := by
    intro a as hp n hn
    cases hn with
    | plain _ _ => rfl
    | dashes _ => exact absurd (plain_iff.1 hp) (by decide)
  have hmsg : ∀ m, OnlyMessages [.stderr m] := by
    intro m e h
    simp only [List.mem_singleton] at h
    exact ⟨_, h⟩
  cases args with
  | nil =>
    refine ⟨?_, fun _ => hmsg _⟩
    refine ⟨fun _ => ⟨?_, ?_, ?_⟩, fun _ => rfl⟩ <;> intro h <;> cases h
  | cons a as =>
    have notopt : ∀ {x}, HelpWord x ∨ VersionWord x → ∃ c s, x.toList = '-' :: c :: s := by
      rintro x (h | h)
      · cases h with
        | short s => exact ⟨'h', s.toList, by simp⟩
        | long => exact ⟨'-', "help".toList, by decide⟩
        | longValue s => exact ⟨'-', "help=".toList ++ s.toList, by simp⟩
      · cases h with
        | short s => exact ⟨'V', s.toList, by simp⟩
        | long => exact ⟨'-', "version".toList, by decide⟩
        | longValue s => exact ⟨'-', "version=".toList ++ s.toList, by simp⟩
    have hopt : ∀ {c s}, a.toList = '-' :: c :: s → a ≠ "--" → ∀ n, ¬ Names n (a :: as) := by
      intro c s ha hd n hn
      cases hn with
      | plain _ hp =>
        have := plain_iff.1 hp
        rw [ha] at this
        simp at this
      | dashes _ => exact hd rfl
    have hgen : General (a :: as) → HelpWord a ∨ VersionWord a := by
      intro h
      cases h with
      | help _ h => exact .inl h
      | version _ h => exact .inr h
    have hc := nextWord_cases a as
    have hdef : runMain w sh fuel (a :: as) = (match nextWord (a :: as) with
      | some (.value name, p) => runSubcommand w sh fuel name p
      | some (.short c, _) =>
          if c = 'h' then ⟨0, [.stdout (mainHelp ++ "\n")]⟩
          else if c = 'V' then ⟨0, [.stdout "avdl 0.1.10+1.12.1\n"]⟩
          else ⟨2, [.stderr (.badArgument (.unexpected (.short c)))]⟩
      | some (.long name, _) =>
          if name = "help" then ⟨0, [.stdout (mainHelp ++ "\n")]⟩
          else if name = "version" then ⟨0, [.stdout "avdl 0.1.10+1.12.1\n"]⟩
          else ⟨2, [.stderr (.badArgument (.unexpected (.long name)))]⟩
      | none => ⟨2, [.stderr .noSubcommand]⟩) := by
      unfold runMain
      rw [next_start]
      cases nextWord (a :: as) with
      | none => rfl
      | some x => rcases x with ⟨x, p⟩; cases x <;> rfl
    rw [hdef]
    generalize nextWord (a :: as) = r at hc
    clear hdef
    cases hc with
    | end_ h1 h2 =>
      subst h1; subst h2
      refine ⟨⟨fun _ => ⟨?_, ?_, ?_⟩, fun _ => rfl⟩, fun _ => hmsg _⟩
      · exact dashes_names
      · exact dashes_names
      · intro h
        exact dashes_general (hgen h)
    | rest h1 h2 =>
      rename_i b bs
      subst h1; subst h2
      have hn : ∀ n, Names n ("--" :: b :: bs) ↔ n = b := by
        intro n
        constructor
        · intro h
          generalize hx : ("--" : String) = x at h
          cases h with
          | plain _ hp => subst hx; exact absurd (plain_iff.1 hp) (by decide)
          | dashes _ => rfl
        · rintro rfl; exact .dashes _
      have hg : ¬ General ("--" :: b :: bs) := by
        intro h
        exact dashes_general (hgen h)
      obtain ⟨h3, h4⟩ := hsub b ⟨.finished, bs⟩
      refine ⟨?_, h4⟩
      simp only [h3, hn, hg, not_false_eq_true, and_true]
      exact ⟨fun h => ⟨Ne.symm h.1, Ne.symm h.2⟩, fun h => ⟨Ne.symm h.1, Ne.symm h.2⟩⟩
    | plain hp =>
      have hn : ∀ n, Names n (a :: as) ↔ n = a :=
        fun n => ⟨hplain hp, by rintro rfl; exact .plain _ hp⟩
      have hg : ¬ General (a :: as) := by
        intro h
        obtain ⟨c, s, h⟩ := notopt (hgen h)
        have := plain_iff.1 hp
        rw [h] at this
        simp at this
      obtain ⟨h3, h4⟩ := hsub a ⟨.start, as⟩
      refine ⟨?_, h4⟩
      simp only [h3, hn, hg, not_false_eq_true, and_true]
      exact ⟨fun h => ⟨Ne.symm h.1, Ne.symm h.2⟩, fun h => ⟨Ne.symm h.1, Ne.symm h.2⟩⟩
    | short hc ha =>
      rename_i c s
      have hd : a ≠ "--" := by
        rintro rfl
        have : ['-', '-'] = '-' :: c :: s := ha
        simp only [List.cons.injEq, true_and] at this
        exact hc this.1.symm
      have hn := hopt ha hd
      simp only [hn, not_false_eq_true, true_and]
      by_cases h1 : c = 'h'
      · subst h1
        have : a = "-h" ++ String.ofList s := String.toList_inj.1 (by simp [ha])
        subst this
        have hg : General (("-h" ++ String.ofList s) :: as) := .help _ (.short _)
        simp [hg]
      · by_cases h2 : c = 'V'
        · subst h2
          have : a = "-V" ++ String.ofList s := String.toList_inj.1 (by simp [ha])
          subst this
          have hg : General (("-V" ++ String.ofList s) :: as) := .version _ (.short _)
          simp [hg]
        · simp only [h1, h2, if_false, true_iff]
          refine ⟨fun h => ?_, fun _ => hmsg _⟩
          rcases hgen h with h | h
          · cases h with
            | short t => simp at ha; exact h1 ha.1.symm
            | long => simp at ha; exact hc ha.1.symm
            | longValue t => simp at ha; exact hc ha.1.symm
          · cases h with
            | short t => simp at ha; exact h2 ha.1.symm
            | long => simp at ha; exact hc ha.1.symm
            | longValue t => simp at ha; exact hc ha.1.symm
    | long hne he ha =>
      rename_i nm
      have hd : a ≠ "--" := by
        rintro rfl
        have : ['-', '-'] = '-' :: '-' :: nm := ha
        simp only [List.cons.injEq, true_and] at this
        exact hne this.symm
      have hn := hopt ha hd
      simp only [hn, not_false_eq_true, true_and]
      by_cases h1 : String.ofList nm = "help"
      · have hnm : nm = "help".toList := by rw [← h1]; simp
        have : a = "--help" := String.toList_inj.1 (by rw [ha, hnm]; rfl)
        subst this
        have hg : General ("--help" :: as) := .help _ .long
        simp [hg, h1]
      · by_cases h2 : String.ofList nm = "version"
        · have hnm : nm = "version".toList := by rw [← h2]; simp
          have : a = "--version" := String.toList_inj.1 (by rw [ha, hnm]; rfl)
          subst this
          have hg : General ("--version" :: as) := .version _ .long
          simp [hg, h2]
        · simp only [h1, h2, if_false, true_iff]
          refine ⟨fun h => ?_, fun _ => hmsg _⟩
          rcases hgen h with h | h
          · cases h with
            | short t => simp at ha
            | long => exact h1 (by have : nm = "help".toList := by simpa using ha.symm
                                   rw [this]; simp)
            | longValue t =>
              have : nm = "help=".toList ++ t.toList := by simpa using ha.symm
              rw [this] at he
              simp at he
          · cases h with
            | short t => simp at ha
            | long => exact h2 (by have : nm = "version".toList := by simpa using ha.symm
                                   rw [this]; simp)
            | longValue t =>
              have : nm = "version=".toList ++ t.toList := by simpa using ha.symm
              rw [this] at he
              simp at he
    | longValue he ha =>
      rename_i nm v
      have hd : a ≠ "--" := by
        rintro rfl
        have : ['-', '-'] = '-' :: '-' :: (nm ++ '=' :: v) := ha
        simp at this
      have hn := hopt (c := '-') (s := nm ++ '=' :: v) ha hd
      simp only [hn, not_false_eq_true, true_and]
      have cut : ∀ {k t : List Char}, '=' ∉ k → nm ++ '=' :: v = k ++ '=' :: t → nm = k := by
        intro k t hk h
        have h1 := cutAtEq_some (v := v) he
        rw [h, cutAtEq_some hk] at h1
        exact (congrArg Prod.fst h1).symm
      by_cases h1 : String.ofList nm = "help"
      · have hnm : nm = "help".toList := by rw [← h1]; simp
        have : a = "--help=" ++ String.ofList v := String.toList_inj.1 (by rw [ha, hnm]; simp)
        subst this
        have hg : General (("--help=" ++ String.ofList v) :: as) := .help _ (.longValue _)
        simp [hg, h1]
      · by_cases h2 : String.ofList nm = "version"
        · have hnm : nm = "version".toList := by rw [← h2]; simp
          have : a = "--version=" ++ String.ofList v := String.toList_inj.1 (by rw [ha, hnm]; simp)
          subst this
          have hg : General (("--version=" ++ String.ofList v) :: as) := .version _ (.longValue _)
          simp [hg, h2]
        · simp only [h1, h2, if_false, true_iff]
          refine ⟨fun h => ?_, fun _ => hmsg _⟩
          rcases hgen h with h | h
          · cases h with
            | short t => simp at ha
            | long =>
              have : "help".toList = nm ++ '=' :: v := by simpa using ha
              have h4 : '=' ∈ "help".toList := by rw [this]; simp
              exact absurd h4 (by decide)
            | longValue t =>
              have : nm ++ '=' :: v = "help".toList ++ '=' :: t.toList := by
                have := ha.symm; simpa using this
              exact h1 (by rw [cut (by decide) this]; simp)
          · cases h with
            | short t => simp at ha
            | long =>
              have : "version".toList = nm ++ '=' :: v := by simpa using ha
              have h4 : '=' ∈ "version".toList := by rw [this]; simp
              exact absurd h4 (by decide)
            | longValue t =>
              have : nm ++ '=' :: v = "version".toList ++ '=' :: t.toList := by
                have := ha.symm; simpa using this
              exact h2 (by rw [cut (by decide) this]; simp)

omit [CharTables] [FloatTables] [CaseTables] [JsonFloats] in
/-- **C48, one meaning.** A command line calls at most one subcommand, with one list of import
directories and one of positional arguments, and not if it asks for help. -/
theorem C48_unambiguous {args : List String} {n n' : String} {D D' : List Path} {P P' : List String}
    (h : Calls n args D P) :
    (Calls n' args D' P' → n = n' ∧ D = D' ∧ P = P') ∧ ¬ CallsHelp n' args := by
  have key : ∀ {as : List String} {E E' : List Path} {Q Q' : List String}, Says as E Q →
      (Says as E' Q' → E = E' ∧ Q = Q') ∧ ¬ AsksHelp as := by
    intro as E E' Q Q' h
    have h1 := argLoop_says h _ (Nat.lt_succ_self _) [] []
    refine ⟨fun h' => ?_, fun h' => ?_⟩
    · have h2 := argLoop_says h' _ (Nat.lt_succ_self _) [] []
      rw [h1] at h2
      simpa using h2
    · have h2 := argLoop_help h' _ (Nat.lt_succ_self _) [] []
      rw [h1] at h2
      cases h2
  have hd : ¬ Plain "--" := fun h => absurd (plain_iff.1 h) (by decide)
  cases h with
  | plain hp h =>
    refine ⟨fun h' => ?_, fun h' => ?_⟩
    · generalize hx : n :: _ = x at h'
      cases h' with
      | plain hp' h' =>
        injection hx with h1 h2
        subst h1; subst h2
        obtain ⟨h3, h4⟩ := (key h).1 h'
        exact ⟨rfl, h3, h4⟩
      | dashes _ =>
        injection hx with h1 h2
        subst h1
        exact absurd hp hd
    · generalize hx : n :: _ = x at h'
      cases h' with
      | plain hp' h' =>
        injection hx with h1 h2
        subst h1; subst h2
        exact (key (E' := []) (Q' := []) h).2 h'
  | dashes P =>
    refine ⟨fun h' => ?_, fun h' => ?_⟩
    · generalize hx : "--" :: n :: P = x at h'
      cases h' with
      | plain hp' h' =>
        injection hx with h1 h2
        subst h1
        exact absurd hp' hd
      | dashes _ =>
        injection hx with h1 h2
        injection h2 with h2 h3
        exact ⟨h2, rfl, h3⟩
    · generalize hx : "--" :: n :: P = x at h'
      cases h' with
      | plain hp' h' =>
        injection hx with h1 h2
        subst h1
        exact absurd hp' hd

/-- **C48, status 0.** The process ends with status 0 exactly if help or the version was asked for,
or a subcommand was called and has succeeded. -/
theorem C48_status_zero (w : World) (sh : Shell) (fuel : Nat) (args : List String) :
    (runMain w sh fuel args).status = 0 ↔
      General args ∨ CallsHelp "idl" args ∨ CallsHelp "idl2schemata" args ∨
      (∃ D P, Calls "idl" args D P ∧ (runIdl w sh fuel P[0]? P[1]? D).1 = .ok ()) ∨
      (∃ D input P, Calls "idl2schemata" args D (input :: P) ∧
        (runIdl2schemata w sh fuel input P[0]? D).1 = .ok ()) := by
  obtain ⟨k1, k2, k3, k4⟩ := C48_help w sh fuel args
  constructor
  · intro h
    by_cases hg : General args
    · exact .inl hg
    have h2 : (runMain w sh fuel args).status ≠ 2 := by omega
    rw [Ne, (C48_status_two w sh fuel args).1] at h2
    by_cases hn : Names "idl" args
    · by_cases hh : CallsHelp "idl" args
      · exact .inr (.inl hh)
      by_cases hc : ∃ D P, Calls "idl" args D P
      · obtain ⟨D, P, hc⟩ := hc
        refine .inr (.inr (.inr (.inl ⟨D, P, hc, ?_⟩)))
        rw [C48_idl w sh fuel hc] at h
        exact (finishRun_status _).1.1 h
      · have := (C48_wrong_arguments w sh fuel (.inl rfl) hn
          (fun D P h => hc ⟨D, P, h⟩) hh).1
        omega
    · by_cases hn' : Names "idl2schemata" args
      · by_cases hh : CallsHelp "idl2schemata" args
        · exact .inr (.inr (.inl hh))
        by_cases hc : ∃ D P, Calls "idl2schemata" args D P
        · obtain ⟨D, P, hc⟩ := hc
          cases P with
          | nil =>
            rw [C48_idl2schemata_no_input w sh fuel hc] at h
            cases h
          | cons input P =>
            refine .inr (.inr (.inr (.inr ⟨D, input, P, hc, ?_⟩)))
            rw [C48_idl2schemata w sh fuel hc] at h
            exact (finishRun_status _).1.1 h
        · have := (C48_wrong_arguments w sh fuel (.inr rfl) hn'
            (fun D P h => hc ⟨D, P, h⟩) hh).1
          omega
      · exact absurd ⟨hn, hn', hg⟩ h2
  · rintro (h | h | h | ⟨D, P, h, hr⟩ | ⟨D, input, P, h, hr⟩)
    · cases h with
      | help as h => rw [k3 _ _ rfl h]
      | version as h => rw [k4 _ _ rfl h]
    · rw [k1 h]
    · rw [k2 h]
    · rw [C48_idl w sh fuel h]
      exact (finishRun_status _).1.2 hr
    · rw [C48_idl2schemata w sh fuel h]
      exact (finishRun_status _).1.2 hr

omit [JsonFloats] in
theorem runIdl_error (w : World) (sh : Shell) (fuel : Nat) (input output : Option String)
    (dirs : List Path) (h : (runIdl w sh fuel input output dirs).1 ≠ .ok ()) :
    ∀ e ∈ (runIdl w sh fuel input output dirs).2, ∃ r, e = .stderr r := by
  have hw : ∀ ws : List Report, ∀ e ∈ ws.map Effect.stderr, ∃ r, e = .stderr r := by
    intro ws e he
    obtain ⟨r, _, rfl⟩ := List.mem_map.1 he
    exact ⟨r, rfl⟩
  unfold runIdl at h ⊢
  split at h
  · simp
  · rename_i out b _
    intro e he
    simp only at h he
    rcases List.mem_append.1 he with he | he
    · exact hw _ e he
    · exfalso
      unfold writeOutput at h he
      generalize output.filter _ = o at h he
      cases o with
      | none => cases hs : sh.stdoutOk <;> simp [hs] at h he
      | some p => cases hs : sh.canWrite p <;> simp [hs] at h he
  · exact hw _

/-- **C48, failures of `idl`.** If a command line naming `idl` does not end with status 0, nothing
is written, neither to standard output nor to a file. -/
theorem C48_idl_failure (w : World) (sh : Shell) (fuel : Nat) {args : List String}
    (hn : Names "idl" args) (h : (runMain w sh fuel args).status ≠ 0) :
    OnlyMessages (runMain w sh fuel args).effects := by
  by_cases hh : CallsHelp "idl" args
  · exact absurd (by rw [(C48_help w sh fuel args).1 hh]) h
  by_cases hc : ∃ D P, Calls "idl" args D P
  · obtain ⟨D, P, hc⟩ := hc
    rw [C48_idl w sh fuel hc] at h ⊢
    have he : (runIdl w sh fuel P[0]? P[1]? D).1 ≠ .ok () := fun he =>
      h ((finishRun_status _).1.2 he)
    have hm := runIdl_error w sh fuel _ _ _ he
    rcases hr : runIdl w sh fuel P[0]? P[1]? D with ⟨r, es⟩
    rw [hr] at hm he
    cases r with
    | ok u => cases u; exact absurd rfl he
    | error e =>
      simp only [finishRun]
      intro x hx
      rcases List.mem_append.1 hx with hx | hx
      · obtain ⟨y, hy, rfl⟩ := List.mem_map.1 hx
        obtain ⟨r, rfl⟩ := hm y hy
        exact ⟨_, rfl⟩
      · simp only [List.mem_singleton] at hx
        exact ⟨_, hx⟩
  · exact (C48_wrong_arguments w sh fuel (.inl rfl) hn (fun D P h => hc ⟨D, P, h⟩) hh).2

/-- The document is written as text: to standard output, or to a file with a line feed after it. -/
inductive WrittenTo (j : Json) : Option Path → Out → Prop
  | stdout : WrittenTo j none (.stdout (prettyJson j))
  | file (p : Path) : WrittenTo j (some p) (.writeFile p (prettyJson j ++ "\n"))

/-- **C48, what a successful `idl` does.** It prints the warnings of the library call and writes
the text of its document to where the second positional argument says; nothing else. -/
theorem C48_idl_success (w : World) (sh : Shell) (fuel : Nat) {args : List String} {D : List Path}
    {P : List String} (hc : Calls "idl" args D P) (h : (runMain w sh fuel args).status = 0) :
    ∃ out b dest e,
      idlConvert w sh fuel P[0]? (D.foldl Builder.importDir Builder.new) = some (.ok out, b) ∧
      GoesTo P[1]? dest ∧ WrittenTo out.json dest e ∧
      (runMain w sh fuel args).effects = out.warnings.map (fun r => .stderr (.warning r)) ++ [e] := by
  rw [C48_idl w sh fuel hc] at h ⊢
  have hok := (finishRun_status _).1.1 h
  obtain ⟨out, b, dest, h1, h2, h3⟩ := (C37_idl_succeeds w sh fuel P[0]? P[1]? D).1 hok
  have hw : ∃ e e', (writeOutput sh P[1]? out.json) = (.ok (), [e]) ∧ e.out = e' ∧
      WrittenTo out.json dest e' := by
    generalize P[1]? = output at h2
    cases h2 with
    | absent =>
      refine ⟨.stdout out.json false, _, ?_, rfl, .stdout⟩
      simp [writeOutput, Option.filter, show sh.stdoutOk = true from h3]
    | dash =>
      refine ⟨.stdout out.json false, _, ?_, rfl, .stdout⟩
      simp [writeOutput, Option.filter, show sh.stdoutOk = true from h3]
    | path hp =>
      rename_i p
      refine ⟨.writeFile p out.json true, _, ?_, rfl, .file p⟩
      simp [writeOutput, Option.filter, hp, show sh.canWrite p = true from h3]
  obtain ⟨e, e', hw1, hw2, hw3⟩ := hw
  refine ⟨out, b, dest, e', h1, h2, hw3, ?_⟩
  have hr : runIdl w sh fuel P[0]? P[1]? D = (.ok (), out.warnings.map .stderr ++ [e]) := by
    unfold runIdl
    rw [h1]
    simp only [hw1]
  simp only [hr, finishRun, List.map_append, List.map_map, List.map_cons, List.map_nil, hw2]
  rfl

omit [CharTables] [FloatTables] [CaseTables] [JsonFloats] in
theorem says_append {before after : List String} {E D : List Path} {Q P : List String}
    (hb : Says before E Q) (hn : "--" ∉ before) (ha : Says after D P) :
    Says (before ++ after) (E ++ D) (Q ++ P) := by
  induction hb with
  | done => exact ha
  | rest ps => simp at hn
  | dir d h ih =>
    simp only [List.mem_cons, not_or] at hn
    exact .dir d (ih hn.2.2)
  | dirEq d h ih =>
    simp only [List.mem_cons, not_or] at hn
    exact .dirEq d (ih hn.2)
  | plain hp h ih =>
    simp only [List.mem_cons, not_or] at hn
    exact .plain hp (ih hn.2)

/-- **C48, options may stand anywhere.** An import directory may be put at any place among the
arguments, in either form, and only its place among the other import directories counts. -/
theorem C48_options_anywhere (w : World) (sh : Shell) (fuel : Nat) {name : String}
    (hname : name = "idl" ∨ name = "idl2schemata")
    {b₁ a₁ b₂ a₂ : List String} {E D : List Path} {Q₁ P₁ Q₂ P₂ : List String}
    (hb₁ : Says b₁ E Q₁) (ha₁ : Says a₁ D P₁) (hb₂ : Says b₂ E Q₂) (ha₂ : Says a₂ D P₂)
    (hn₁ : "--" ∉ b₁) (hn₂ : "--" ∉ b₂) (hP : Q₁ ++ P₁ = Q₂ ++ P₂) (d : Path) :
    runMain w sh fuel (name :: b₁ ++ "--import-dir" :: d :: a₁) =
      runMain w sh fuel (name :: b₂ ++ "--import-dir" :: d :: a₂) ∧
    runMain w sh fuel (name :: b₁ ++ "--import-dir" :: d :: a₁) =
      runMain w sh fuel (name :: b₂ ++ ("--import-dir=" ++ d) :: a₂) := by
  have h1 := says_append hb₁ hn₁ (.dir d ha₁)
  have h2 := says_append hb₂ hn₂ (.dir d ha₂)
  have h3 := says_append hb₂ hn₂ (.dirEq d ha₂)
  rw [← hP] at h2 h3
  have hp : Plain name := by
    rcases hname with rfl | rfl <;> exact plain_iff.2 (by decide)
  have key : ∀ {as as' : List String} {D : List Path} {P : List String}, Says as D P →
      Says as' D P → runMain w sh fuel (name :: as) = runMain w sh fuel (name :: as') := by
    intro as as' D P h h'
    have c1 := Calls.plain hp h
    have c2 := Calls.plain hp h'
    rcases hname with rfl | rfl
    · rw [C48_idl w sh fuel c1, C48_idl w sh fuel c2]
    · cases P with
      | nil => rw [C48_idl2schemata_no_input w sh fuel c1, C48_idl2schemata_no_input w sh fuel c2]
      | cons i P => rw [C48_idl2schemata w sh fuel c1, C48_idl2schemata w sh fuel c2]
  exact ⟨key h1 h2, key h1 h3⟩

/-- **C48, surplus arguments.** Positional arguments after the second have no effect. -/
theorem C48_surplus_ignored (w : World) (sh : Shell) (fuel : Nat) {args args' : List String}
    {D : List Path} {a b : String} {P P' : List String} (h : Calls "idl" args D (a :: b :: P))
    (h' : Calls "idl" args' D (a :: b :: P')) : runMain w sh fuel args = runMain w sh fuel args' := by
  rw [C48_idl w sh fuel h, C48_idl w sh fuel h']
  simp

omit [CharTables] [FloatTables] [CaseTables] [JsonFloats] in
theorem convertImpl_compiled {fuel : Nat} {r : Except CompileErr CompileOutput × Builder}
    {b' : Builder} {res : IdlOutput} (h : convertImpl fuel r = (.ok res, b')) :
    ∃ out b, r = (.ok out, b) := by
  rcases r with ⟨_ | out, b⟩
  · unfold convertImpl at h
    simp at h
  · exact ⟨out, b, rfl⟩

omit [JsonFloats] in
theorem idlConvert_converts {w : World} {sh : Shell} {fuel : Nat} {input : Option String}
    {b b' : Builder} {res : IdlOutput} (h : idlConvert w sh fuel input b = some (.ok res, b')) :
    ∃ out, Converts b w fuel out res.json := by
  unfold idlConvert at h
  split at h
  · injection h with h
    obtain ⟨out, b2, hc⟩ := convertImpl_compiled h
    exact ⟨out, .file hc h rfl⟩
  · split at h
    · cases h
    · injection h with h
      obtain ⟨out, b2, hc⟩ := convertImpl_compiled h
      exact ⟨out, .text hc h rfl⟩

/-- **C48, C45: from one command to the next.** A successful `idl` with an output file writes a
text there; whoever imports a file with this text, as a protocol, gets the types and messages that
the command has compiled.  (The conditions are those of `C45_protocol_partial`.) -/
theorem C45_command_partial {w : World} {sh : Shell} {fuel : Nat} {args : List String}
    {D : List Path} {P : List String} {dest : Path} (hc : Calls "idl" args D P)
    (hd : GoesTo P[1]? (some dest)) (hs : (runMain w sh fuel args).status = 0)
    (hw : w.parseJson = parseJsonWithComments) :
    ∃ (out : CompileOutput) (j : Json) (text : String),
      Converts (D.foldl Builder.importDir Builder.new) w fuel out j ∧
      (∃ ws : List Report, (runMain w sh fuel args).effects =
        ws.map (fun r => .stderr (.warning r)) ++ [.writeFile dest text]) ∧
      ∀ p, out.file = .protocol p → CoherentProtocol p → (∀ t ∈ p.types, Faithful t) →
        (∀ nm ∈ p.messages, FaithfulMessage nm.2) → FloatsSurvive j → nesting j ≤ 127 →
        ∀ (b₂ : Builder) (w₂ : World) (n : Nat) (src name file : String) (dir f : Path)
          (path : Option Path), w₂.parseJson = parseJsonWithComments → w₂.read f = some text →
          OnlyImports w₂ src name .protocol file → ImportsTo w₂ b₂.importDirs dir file f →
          f ∉ path.toList →
          ∃ out' p' b₂', b₂.compile w₂ (n + 1) src name dir path = (.ok out', b₂') ∧
            out'.file = .protocol p' ∧ SameTypes out.registry out'.registry ∧
            SameMessages p.messages p'.messages := by
  obtain ⟨res, b, dest', e, h1, h2, h3, h4⟩ := C48_idl_success w sh fuel hc hs
  have hdd : dest' = some dest := by
    generalize P[1]? = o at hd h2
    cases hd
    cases h2
    · contradiction
    · rfl
  subst hdd
  obtain ⟨out, hconv⟩ := idlConvert_converts h1
  cases h3
  refine ⟨out, res.json, _, hconv, ⟨res.warnings, h4⟩, ?_⟩
  intro p hp hcp hf hm hfl hn b₂ w₂ n src name file dir f path hw₂ hr hi hto hnew
  exact C45_protocol_partial hconv hw hp hcp hf hm hfl hn hw₂ (.inr hr) hi hto hnew

/-- **C48 fails for surplus arguments:** `idl a b c` is accepted and does what `idl a b` does. -/
theorem C48_fails_surplus (w : World) (sh : Shell) (fuel : Nat) :
    runMain w sh fuel ["idl", "a", "b", "c"] = runMain w sh fuel ["idl", "a", "b"] := by
  have hp : ∀ x ∈ ["idl", "a", "b", "c"], Plain x := fun x hx => by
    simp only [List.mem_cons, List.not_mem_nil, or_false] at hx
    rcases hx with rfl | rfl | rfl | rfl <;> exact plain_iff.2 (by decide)
  exact C48_surplus_ignored w sh fuel (D := []) (a := "a") (b := "b") (P := ["c"]) (P' := [])
    (.plain (hp _ (by decide)) (.plain (hp _ (by decide)) (.plain (hp _ (by decide))
      (.plain (hp _ (by decide)) .done))))
    (.plain (hp _ (by decide)) (.plain (hp _ (by decide)) (.plain (hp _ (by decide)) .done)))

/-- **C48 fails for the status of usage errors:** the same wrong option ends the process with status
2 before the subcommand and with status 1 after it, as a failed compilation does. -/
theorem C48_fails_usage_status (w : World) (sh : Shell) (fuel : Nat) :
    (runMain w sh fuel ["--wrong", "idl"]).status = 2 ∧
    (runMain w sh fuel ["idl", "--wrong"]).status = 1 :=
  ⟨rfl, rfl⟩

end

/-! ### Examples -/

attribute [local instance] asciiTables exFloats exCases exJsonFloats

/-- Files can be read from and written to everywhere. -/
def exArgsShell : Shell := ⟨none, true, fun _ => true, fun _ => true⟩

/-- Options on both sides of the positional arguments. -/
def exCommand : List String := ["idl", "--import-dir", "-x", "a", "--import-dir=y=z", "--", "-h"]

theorem exCommand_calls : Calls "idl" exCommand ["-x", "y=z"] ["a", "-h"] :=
  .plain (plain_iff.2 (by decide)) (.dir "-x" (.plain (plain_iff.2 (by decide))
    (.dirEq "y=z" (.rest ["-h"]))))

/-- What is written by the example, in outline. -/
def exSummary (p : Process) : Nat × List (Option Path) :=
  (p.status, p.effects.map fun
    | .writeFile f _ => some f
    | _ => none)

/-- It succeeds, and writes the file `-h`. -/
example : exSummary (runMain (exReimportWorld exOriginal) exArgsShell 9 exCommand) =
    (0, [some "-h"]) := by decide +kernel

/-- Statuses, with the causes that the theorems name. -/
example :
    exSummary (runMain (exReimportWorld exOriginal) exArgsShell 9 ["idl", "b"]) = (1, [none]) ∧
    exSummary (runMain (exReimportWorld exOriginal) exArgsShell 9 ["idl", "a", "--importdir"]) =
      (1, [none]) ∧
    exSummary (runMain (exReimportWorld exOriginal) exArgsShell 9 ["idl", "-hx", "--importdir"]) =
      (0, [none]) ∧
    exSummary (runMain (exReimportWorld exOriginal) exArgsShell 9 ["--importdir"]) = (2, [none]) ∧
    exSummary (runMain (exReimportWorld exOriginal) exArgsShell 9 []) = (2, [none]) := by
  decide +kernel

/-- Help after an unknown option is not reached. -/
example : ¬ CallsHelp "idl" ["idl", "-x", "--help"] ∧ CallsHelp "idl" ["idl", "a", "--help=x", "-x"] := by
  constructor
  · intro h
    have := (C48_help (exReimportWorld exOriginal) exArgsShell 9 _).1 h
    simp [runMain, ArgParser.next, nextWord, runSubcommand, parseIdlArgs, argLoop] at this
  · exact .plain (plain_iff.2 (by decide)) (.plain (plain_iff.2 (by decide))
      (.here _ (.longValue "x")))

end Avdl.Props
