import Verif.Props.CompileApi
import Verif.Spec.Directory
import Verif.Lemmas.Names
import Verif.Parser
/-!
# C51: extracting from a directory
-/

namespace Avdl.Props
open Spec

theorem extensionOf_avdl (name : String) : extensionOf name = some "avdl" ↔ AvdlName name := by
  unfold extensionOf
  constructor
  · intro h
    split at h
    · rename_i c cs ext hr
      injection h with h
      obtain ⟨e, _⟩ := rsplitDot_some hr
      refine ⟨String.ofList (c :: cs), fun h0 => ?_, ?_⟩
      · have := congrArg String.toList h0
        rw [String.toList_ofList] at this
        cases this
      · apply String.toList_inj.mp
        rw [e, String.toList_append, String.toList_ofList]
        have := congrArg String.toList h
        rw [String.toList_ofList] at this
        rw [this]; rfl
    · cases h
  · rintro ⟨stem, hne, rfl⟩
    have : (stem ++ ".avdl").toList = stem.toList ++ '.' :: "avdl".toList := by
      rw [String.toList_append]; rfl
    rw [this, rsplitDot_append (by decide)]
    cases hs : stem.toList with
    | nil => exact absurd (String.toList_inj.mp (by rw [hs]; rfl)) hne
    | cons c cs => simp

/-- The entries of a directory that have the name of an IDL file. -/
theorem mem_avdlFiles (w : World) (dir p : Path) :
    p ∈ w.avdlFiles dir ↔ p ∈ w.walk dir ∧ ∃ name, w.fileName p = some name ∧ AvdlName name := by
  unfold World.avdlFiles
  rw [List.mem_filter]
  refine and_congr_right fun _ => ?_
  cases w.fileName p with
  | none => simp
  | some n => simp [extensionOf_avdl]

section
variable [CharTables] [FloatTables] [CaseTables]

/-- What extracting a single file gives, with the search directories of a builder. -/
def extractOne (w : World) (fuel : Nat) (dirs : List Path) (p : Path) :
    Except CompileErr SchemataOutput :=
  (extractFrom fuel (Builder.compileFile ⟨dirs, []⟩ w fuel p)).1

theorem extractFiles_cases (w : World) (fuel : Nat) (paths : List Path) : ∀ b : Builder,
    (∃ outs : List SchemataOutput,
      Matching (fun p o => extractOne w fuel b.importDirs p = .ok o) paths outs ∧
      (Builder.extractFiles w fuel paths b).1 =
        .ok ⟨outs.flatMap SchemataOutput.schemas, outs.flatMap SchemataOutput.warnings⟩) ∨
    (∃ before p after e, paths = before ++ p :: after ∧
      (∀ q ∈ before, ∃ o, extractOne w fuel b.importDirs q = .ok o) ∧
      extractOne w fuel b.importDirs p = .error e ∧
      (Builder.extractFiles w fuel paths b).1 = .error e) := by
  induction paths with
  | nil => exact fun b => .inl ⟨[], .nil, rfl⟩
  | cons q qs ih =>
    intro b
    simp only [Builder.extractFiles]
    have hd := compileFile_dirs b w fuel q
    have hres := compileFile_result b [] w fuel q
    have hone : extractOne w fuel b.importDirs q = (extractFrom fuel (b.compileFile w fuel q)).1 := by
      unfold extractOne
      show (extractFrom fuel (Builder.compileFile { b with accumulated := [] } w fuel q)).1 = _
      generalize Builder.compileFile { b with accumulated := [] } w fuel q = x at hres
      generalize b.compileFile w fuel q = y at hres
      obtain ⟨x1, x2⟩ := x
      obtain ⟨y1, y2⟩ := y
      simp only at hres
      subst hres
      cases x1 <;> rfl
    have hd' : (extractFrom fuel (b.compileFile w fuel q)).2.importDirs = b.importDirs := by
      rw [← hd]
      generalize b.compileFile w fuel q = y
      obtain ⟨y1, y2⟩ := y
      cases y1 <;> rfl
    generalize extractFrom fuel (b.compileFile w fuel q) = r at hone hd'
    obtain ⟨r1, b1⟩ := r
    cases r1 with
    | error e' => exact .inr ⟨[], q, qs, e', rfl, (fun _ h => nomatch h), hone, rfl⟩
    | ok o =>
      simp only at hone hd' ⊢
      have := ih b1
      rw [hd'] at this
      generalize Builder.extractFiles w fuel qs b1 = r2 at this
      obtain ⟨r21, b2⟩ := r2
      rcases this with ⟨outs, h1, h2⟩ | ⟨before, p, after, e, h1, h2, h3, h4⟩
      · simp only at h2
        subst h2
        exact .inl ⟨o :: outs, .cons hone h1, rfl⟩
      · simp only at h4
        subst h4
        refine .inr ⟨q :: before, p, after, e, by rw [h1]; rfl, fun x hx => ?_, h3, rfl⟩
        rcases List.mem_cons.mp hx with h | h
        · subst h; exact ⟨o, hone⟩
        · exact h2 x h

/-- The entries of a directory, and of the directories below it, that are named `….avdl`. -/
def Entries (w : World) (dir : Path) (ps : List Path) : Prop :=
  ps.Sublist (w.walk dir) ∧
  ∀ p ∈ w.walk dir, p ∈ ps ↔ ∃ name, w.fileName p = some name ∧ AvdlName name

/-- **C51.**  Extracting from a directory takes the entries named `….avdl` of the directory and
everything below it, in order, each with the search directories of the builder and nothing of the
others: if all of them can be extracted the result is theirs, one after the other, and otherwise the
failure is that of the first that cannot be extracted.  Missing: an entry named so that is a
directory is taken for a file (`C51_fails_directory_entry`). -/
theorem C51_directory_partial (w : World) (fuel : Nat) (b : Builder) (dir : Path)
    (hd : w.isDir dir = true) :
    ∃ ps, Entries w dir ps ∧
    ((∃ outs : List SchemataOutput,
      Matching (fun p o => extractOne w fuel b.importDirs p = .ok o) ps outs ∧
      (b.extract w fuel dir).1 =
        .ok ⟨outs.flatMap SchemataOutput.schemas, outs.flatMap SchemataOutput.warnings⟩) ∨
    (∃ before p after e, ps = before ++ p :: after ∧
      (∀ q ∈ before, ∃ o, extractOne w fuel b.importDirs q = .ok o) ∧
      extractOne w fuel b.importDirs p = .error e ∧ (b.extract w fuel dir).1 = .error e)) := by
  have hx : b.extract w fuel dir = Builder.extractFiles w fuel (w.avdlFiles dir) b := by
    unfold Builder.extract; rw [if_pos hd]
  rw [hx]
  exact ⟨w.avdlFiles dir, ⟨List.filter_sublist, fun p hp =>
    ⟨fun h => ((mem_avdlFiles w dir p).mp h).2, fun h => (mem_avdlFiles w dir p).mpr ⟨hp, h⟩⟩⟩,
    extractFiles_cases w fuel _ b⟩

/-- **C51, single files.**  `extractOne` is what extracting the file alone gives. -/
theorem C51_single_file (w : World) (fuel : Nat) (b : Builder) (p : Path)
    (hd : w.isDir p = false) : (b.extract w fuel p).1 = extractOne w fuel b.importDirs p := by
  have hx : b.extract w fuel p = extractFrom fuel (b.compileFile w fuel p) := by
    unfold Builder.extract; rw [if_neg (by rw [hd]; decide)]
  rw [hx]
  have hres := compileFile_result b [] w fuel p
  show _ = (extractFrom fuel (Builder.compileFile { b with accumulated := [] } w fuel p)).1
  generalize Builder.compileFile { b with accumulated := [] } w fuel p = x at hres
  generalize b.compileFile w fuel p = y at hres
  obtain ⟨x1, x2⟩ := x
  obtain ⟨y1, y2⟩ := y
  simp only at hres
  subst hres
  cases x1 <;> rfl

/-- **C51 fails** for an entry that cannot be read as a file, such as a directory called `x.avdl`:
although it contains no IDL file the extraction fails, whatever the IDL files are. -/
theorem C51_fails_directory_entry (w : World) (fuel : Nat) (b : Builder) (dir sub : Path)
    (name : String) (hd : w.isDir dir = true) (hs : sub ∈ w.walk dir)
    (hn : w.fileName sub = some name) (ha : AvdlName name) (hr : w.read sub = none) :
    ∃ e, (b.extract w fuel dir).1 = .error e := by
  obtain ⟨ps, hps, h⟩ := C51_directory_partial w fuel b dir hd
  rcases h with ⟨outs, h, hok⟩ | ⟨_, _, _, e, _, _, _, h⟩
  · exfalso
    have hm : sub ∈ ps := (hps.2 sub hs).mpr ⟨name, hn, ha⟩
    clear hps hok
    induction h with
    | nil => cases hm
    | cons h _ ih =>
      rcases List.mem_cons.mp hm with e | e
      · subst e
        simp [extractOne, Builder.compileFile, hr, extractFrom] at h
      · exact ih e
  · exact ⟨e, h⟩

end

section
attribute [local instance] asciiTables exFloats exCases

/-- `d` contains the files `d/a.avdl` and `d/x.txt` and the directories `d/e.avdl`, which is empty,
and `d/f` with the file `d/f/b.avdl`. -/
private def exDirWorld (extra : List Path) : World where
  join _ f := f
  parent _ := some ""
  fileName p := some p
  exists_ _ := true
  canonicalize := some
  cwd := some ""
  isDir p := ["d", "d/e.avdl", "d/f"].contains p
  walk p := if p = "d" then ["d", "d/a.avdl"] ++ extra ++ ["d/f", "d/f/b.avdl", "d/x.txt"] else []
  read p := if p = "d/a.avdl" then some "enum A{X}" else
    if p = "d/f/b.avdl" then some "enum B{Y}" else none
  parse := parseSource
  parseJson _ := none

/-- Non-vacuity: the two files are extracted, the text file is not. -/
example : ((Builder.new.extract (exDirWorld []) 9 "d").1.toOption.map
    fun o => o.schemas.map Prod.fst) = some ["A", "B"] := by decide +kernel

example : (Builder.new.extract (exDirWorld ["d/e.avdl"]) 9 "d").1.toOption.isNone := by
  decide +kernel

example : AvdlName "a.b.avdl" := ⟨"a.b", by decide, rfl⟩
example : ¬ AvdlName ".avdl" := by
  rw [← extensionOf_avdl]; decide

end

end Avdl.Props
