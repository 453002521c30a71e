import Verif.Cli
import Verif.Props.CompileApi
import Verif.Props.Output
/-!
# C33, C37: the command line

Which files a run writes, and what else it prints.
-/

namespace Avdl.Props
open Spec

/-- The files after a run: content of each path written, by a later write where there are
several. -/
def filesAfter : List Effect → Path → Option Json
  | [], _ => none
  | .writeFile p j _ :: es, q => (filesAfter es q).or (if p = q then some j else none)
  | _ :: es, q => filesAfter es q

/-- The paths written, each once. -/
def writtenPaths : List Effect → List Path
  | [] => []
  | .writeFile p _ _ :: es => if p ∈ writtenPaths es then writtenPaths es else p :: writtenPaths es
  | _ :: es => writtenPaths es

/-- Joining two names to a directory gives different paths for different names. -/
def JoinInjective (w : World) : Prop := ∀ d a b, w.join d a = w.join d b → a = b

/-- The last entry with a name. -/
def lastNamed (n : String) : List (String × Json) → Option Json
  | [] => none
  | (m, j) :: rest => (lastNamed n rest).or (if m = n then some j else none)

theorem filesAfter_stderr (ws : List Report) (es : List Effect) (q : Path) :
    filesAfter (ws.map .stderr ++ es) q = filesAfter es q := by
  induction ws with
  | nil => rfl
  | cons w ws ih => simpa [filesAfter] using ih

theorem writtenPaths_stderr (ws : List Report) (es : List Effect) :
    writtenPaths (ws.map .stderr ++ es) = writtenPaths es := by
  induction ws with
  | nil => rfl
  | cons w ws ih => simpa [writtenPaths] using ih

theorem append_avsc {a b : String} (h : a ++ ".avsc" = b ++ ".avsc") : a = b := by
  have h1 := congrArg String.toList h
  simp only [String.toList_append] at h1
  exact String.toList_inj.1 (List.append_cancel_right h1)

theorem filesAfter_writeSchemas {w : World} (hj : JoinInjective w) {sh : Shell} {dir : Path}
    {ss : List (String × Json)} (hok : (writeSchemas w sh dir ss).1 = .ok ()) (n : String) :
    filesAfter (writeSchemas w sh dir ss).2 (w.join dir (n ++ ".avsc")) = lastNamed n ss := by
  induction ss with
  | nil => rfl
  | cons x ss ih =>
    obtain ⟨m, j⟩ := x
    simp only [writeSchemas] at hok ⊢
    split at hok
    · rename_i hc
      simp only [hc, if_true, filesAfter, ih hok, lastNamed]
      congr 1
      by_cases hm : m = n
      · simp [hm]
      · rw [if_neg hm, if_neg]
        intro he
        exact hm (append_avsc (hj _ _ _ he))
    · cases hok

theorem lastNamed_mem {ss : List (String × Json)} {n : String} {j : Json}
    (h : lastNamed n ss = some j) : (n, j) ∈ ss := by
  induction ss with
  | nil => cases h
  | cons x ss ih =>
    obtain ⟨m, k⟩ := x
    simp only [lastNamed] at h
    cases hl : lastNamed n ss with
    | some v =>
      simp only [hl, Option.some_or] at h
      exact List.mem_cons_of_mem _ (ih (by rw [hl, h]))
    | none =>
      simp only [hl, Option.none_or] at h
      split at h
      · rename_i he
        injection h with h
        simp [he, h]
      · cases h

theorem lastNamed_of_nodup {ss : List (String × Json)} (h : (ss.map Prod.fst).Nodup)
    {n : String} {j : Json} (hm : (n, j) ∈ ss) : lastNamed n ss = some j := by
  induction ss with
  | nil => cases hm
  | cons x ss ih =>
    obtain ⟨m, k⟩ := x
    simp only [List.map_cons, List.nodup_cons] at h
    simp only [lastNamed]
    rcases List.mem_cons.1 hm with he | hm
    · cases he
      have : lastNamed n ss = none := by
        cases hl : lastNamed n ss with
        | none => rfl
        | some v => exact absurd (List.mem_map.2 ⟨_, lastNamed_mem hl, rfl⟩) h.1
      simp [this]
    · simp [ih h.2 hm]

theorem mem_writtenPaths {w : World} (hj : JoinInjective w) {sh : Shell} {dir : Path}
    {ss : List (String × Json)} (hok : (writeSchemas w sh dir ss).1 = .ok ()) (n : String) :
    w.join dir (n ++ ".avsc") ∈ writtenPaths (writeSchemas w sh dir ss).2 ↔
      n ∈ ss.map Prod.fst := by
  induction ss with
  | nil => simp [writeSchemas, writtenPaths]
  | cons x ss ih =>
    obtain ⟨m, j⟩ := x
    simp only [writeSchemas] at hok ⊢
    split at hok
    · rename_i hc
      have hinj : w.join dir (n ++ ".avsc") = w.join dir (m ++ ".avsc") ↔ n = m :=
        ⟨fun h => append_avsc (hj _ _ _ h), fun h => by rw [h]⟩
      simp only [hc, if_true, writtenPaths, List.map_cons, List.mem_cons]
      split
      · rename_i hm
        rw [ih hok]
        constructor
        · exact .inr
        · rintro (rfl | h)
          · exact (ih hok).1 hm
          · exact h
      · rw [List.mem_cons, hinj, ih hok]
    · cases hok

theorem length_writtenPaths_le {w : World} {sh : Shell} {dir : Path} {ss : List (String × Json)} :
    (writtenPaths (writeSchemas w sh dir ss).2).length ≤ ss.length := by
  induction ss with
  | nil => simp [writeSchemas, writtenPaths]
  | cons x ss ih =>
    obtain ⟨m, j⟩ := x
    simp only [writeSchemas]
    split
    · simp only [writtenPaths]
      split <;> simp only [List.length_cons] <;> omega
    · simp [writtenPaths]

theorem length_writtenPaths {w : World} (hj : JoinInjective w) {sh : Shell} {dir : Path}
    {ss : List (String × Json)} (hok : (writeSchemas w sh dir ss).1 = .ok ()) :
    (writtenPaths (writeSchemas w sh dir ss).2).length = ss.length ↔
      (ss.map Prod.fst).Nodup := by
  induction ss with
  | nil => simp [writeSchemas, writtenPaths]
  | cons x ss ih =>
    obtain ⟨m, j⟩ := x
    have hmem := fun h => mem_writtenPaths (ss := ss) (sh := sh) (dir := dir) hj h m
    simp only [writeSchemas] at hok ⊢
    split at hok
    · rename_i hc
      simp only [hc, if_true, writtenPaths, List.map_cons, List.nodup_cons, ← hmem hok]
      split
      · rename_i hm
        have := length_writtenPaths_le (w := w) (sh := sh) (dir := dir) (ss := ss)
        constructor
        · intro h; simp only [List.length_cons] at h; omega
        · rintro ⟨h, -⟩; exact absurd hm h
      · rename_i hm
        simp only [List.length_cons, Nat.add_right_cancel_iff, ih hok, hm, not_false_eq_true,
          true_and]
    · cases hok

section
variable [CharTables] [FloatTables] [CaseTables]

/-- A successful run prints the warnings, creates the directory and runs the file loop. -/
theorem runIdl2schemata_ok {w : World} {sh : Shell} {fuel : Nat} {input : String}
    {outdir : Option Path} {dirs : List Path} {es : List Effect}
    (h : runIdl2schemata w sh fuel input outdir dirs = (.ok (), es)) :
    ∃ out b, (dirs.foldl Builder.importDir Builder.new).extract w fuel input = (.ok out, b) ∧
      (writeSchemas w sh (outdir.getD ".") out.schemas).1 = .ok () ∧
      es = out.warnings.map .stderr ++ .createDir (outdir.getD ".") ::
        (writeSchemas w sh (outdir.getD ".") out.schemas).2 := by
  simp only [runIdl2schemata] at h
  split at h
  · cases h
  · rename_i out b heq
    refine ⟨out, b, heq, ?_⟩
    split at h
    · cases h
    · split at h
      · cases h
      · injection h with h1 h2
        exact ⟨h1, h2.symm⟩

/-- **C33 (partial).** If the simple names of the extracted schemas are distinct, a successful
`idl2schemata` run leaves a file `<name>.avsc` with each of them in the output directory; and there
are as many files as schemas exactly if the simple names are distinct.

Full property: one file per registered type.  It fails for types of the same simple name in
different namespaces, see `C33_fails_same_simple_name`. -/
theorem C33_one_file_each_partial {w : World} (hj : JoinInjective w) {sh : Shell} {fuel : Nat}
    {input : String} {outdir : Option Path} {dirs : List Path} {es : List Effect}
    {out : SchemataOutput} {b : Builder}
    (h : runIdl2schemata w sh fuel input outdir dirs = (.ok (), es))
    (hout : (dirs.foldl Builder.importDir Builder.new).extract w fuel input = (.ok out, b)) :
    ((out.schemas.map Prod.fst).Nodup → ∀ n j, (n, j) ∈ out.schemas →
      filesAfter es (w.join (outdir.getD ".") (n ++ ".avsc")) = some j) ∧
    ((writtenPaths es).length = out.schemas.length ↔ (out.schemas.map Prod.fst).Nodup) := by
  obtain ⟨out', b', hout', hok, rfl⟩ := runIdl2schemata_ok h
  rw [hout] at hout'
  injection hout' with hout' _
  injection hout' with hout'
  subst hout'
  rw [writtenPaths_stderr]
  refine ⟨fun hd n j hm => ?_, ?_⟩
  · rw [filesAfter_stderr]
    simp only [filesAfter]
    rw [filesAfter_writeSchemas hj hok, lastNamed_of_nodup hd hm]
  · simp only [writtenPaths]
    exact length_writtenPaths hj hok

/-- **C33, in general.** The file of a name has the schema extracted last under that name. -/
theorem C33_last_wins {w : World} (hj : JoinInjective w) {sh : Shell} {fuel : Nat}
    {input : String} {outdir : Option Path} {dirs : List Path} {es : List Effect}
    {out : SchemataOutput} {b : Builder}
    (h : runIdl2schemata w sh fuel input outdir dirs = (.ok (), es))
    (hout : (dirs.foldl Builder.importDir Builder.new).extract w fuel input = (.ok out, b))
    (before after : List (String × Json)) (n : String) (j : Json)
    (hs : out.schemas = before ++ (n, j) :: after) (hlast : n ∉ after.map Prod.fst) :
    filesAfter es (w.join (outdir.getD ".") (n ++ ".avsc")) = some j := by
  obtain ⟨out', b', hout', hok, rfl⟩ := runIdl2schemata_ok h
  rw [hout] at hout'
  injection hout' with hout' _
  injection hout' with hout'
  subst hout'
  rw [filesAfter_stderr]
  simp only [filesAfter]
  rw [filesAfter_writeSchemas hj hok, hs]
  clear hs hok h
  have hnone : lastNamed n after = none := by
    cases hl : lastNamed n after with
    | none => rfl
    | some v => exact absurd (List.mem_map.2 ⟨_, lastNamed_mem hl, rfl⟩) hlast
  induction before with
  | nil => simp [lastNamed, hnone]
  | cons x xs ih => obtain ⟨m, k⟩ := x; simp [lastNamed, ih]

/-! ### C37: what a run prints and writes -/

/-- The warnings among the effects. -/
def printedWarnings (es : List Effect) : List Report :=
  es.filterMap fun e => match e with
    | .stderr r => some r
    | _ => none

/-- The results among the effects: what goes to standard output, and what to files. -/
def results (es : List Effect) : List (Option Path × Json) :=
  es.filterMap fun e => match e with
    | .stdout j _ => some (none, j)
    | .writeFile p j _ => some (some p, j)
    | _ => none

/-- Where `OUTPUT` says the result goes: standard output unless it is a path other than `-`. -/
inductive GoesTo : Option String → Option Path → Prop
  | absent : GoesTo none none
  | dash : GoesTo (some "-") none
  | path {p} : p ≠ "-" → GoesTo (some p) (some p)

omit [CharTables] [FloatTables] [CaseTables] in
theorem printedWarnings_map (ws : List Report) (es : List Effect) :
    printedWarnings (ws.map .stderr ++ es) = ws ++ printedWarnings es := by
  induction ws with
  | nil => rfl
  | cons w ws ih => simpa [printedWarnings] using ih

omit [CharTables] [FloatTables] [CaseTables] in
theorem results_map (ws : List Report) (es : List Effect) :
    results (ws.map .stderr ++ es) = results es := by
  induction ws with
  | nil => rfl
  | cons w ws _ => simp [results]

/-- **C37, `idl`.** The run calls the library once, on the named file or on standard input.

* If that succeeds, all its warnings are printed, and the run succeeds exactly if the JSON could
  be written, once, to where `OUTPUT` says.
* If it fails, the run fails, writes nothing, and prints what the library keeps as warnings. -/
theorem C37_idl (w : World) (sh : Shell) (fuel : Nat) (input output : Option String)
    (dirs : List Path) (r : Except CompileErr IdlOutput) (b : Builder)
    (hcall : idlConvert w sh fuel input (dirs.foldl Builder.importDir Builder.new) = some (r, b)) :
    match r with
    | .ok out => ∃ dest, GoesTo output dest ∧
        printedWarnings (runIdl w sh fuel input output dirs).2 = out.warnings ∧
        ((runIdl w sh fuel input output dirs).1 = .ok () ∧
            results (runIdl w sh fuel input output dirs).2 = [(dest, out.json)] ∨
          (∃ e, (runIdl w sh fuel input output dirs).1 = .error e) ∧
            results (runIdl w sh fuel input output dirs).2 = [])
    | .error e => (runIdl w sh fuel input output dirs).1 = .error (.compile e) ∧
        results (runIdl w sh fuel input output dirs).2 = [] ∧
        printedWarnings (runIdl w sh fuel input output dirs).2 = b.drain.1 := by
  cases r with
  | error e =>
    simp only [runIdl, hcall]
    have h1 := results_map b.drain.1 []
    have h2 := printedWarnings_map b.drain.1 []
    simp only [List.append_nil] at h1 h2
    exact ⟨trivial, h1, by rw [h2]; simp [printedWarnings]⟩
  | ok out =>
    simp only [runIdl, hcall, printedWarnings_map, results_map]
    have hw : ∃ dest, GoesTo output dest ∧
        printedWarnings (writeOutput sh output out.json).2 = [] ∧
        ((writeOutput sh output out.json).1 = .ok () ∧
            results (writeOutput sh output out.json).2 = [(dest, out.json)] ∨
          (∃ e, (writeOutput sh output out.json).1 = .error e) ∧
            results (writeOutput sh output out.json).2 = []) := by
      have std : writeOutput sh none out.json = writeOutput sh (some "-") out.json := rfl
      have hstd : printedWarnings (writeOutput sh none out.json).2 = [] ∧
          ((writeOutput sh none out.json).1 = .ok () ∧
              results (writeOutput sh none out.json).2 = [(none, out.json)] ∨
            (∃ e, (writeOutput sh none out.json).1 = .error e) ∧
              results (writeOutput sh none out.json).2 = []) := by
        simp only [writeOutput, Option.filter_none]
        split
        · exact ⟨rfl, .inl ⟨rfl, rfl⟩⟩
        · exact ⟨rfl, .inr ⟨⟨_, rfl⟩, rfl⟩⟩
      cases output with
      | none => exact ⟨none, .absent, hstd⟩
      | some p =>
        by_cases hp : p = "-"
        · subst hp
          exact ⟨none, .dash, std ▸ hstd⟩
        · refine ⟨some p, .path hp, ?_⟩
          have : (some p).filter (fun s => decide (s ≠ "-")) = some p := by simp [hp]
          simp only [writeOutput, this]
          split
          · exact ⟨rfl, .inl ⟨rfl, rfl⟩⟩
          · exact ⟨rfl, .inr ⟨⟨_, rfl⟩, rfl⟩⟩
    obtain ⟨dest, h1, h2, h3⟩ := hw
    exact ⟨dest, h1, by rw [h2, List.append_nil], h3⟩

omit [CharTables] [FloatTables] [CaseTables] in
theorem writeSchemas_effects (w : World) (sh : Shell) (dir : Path) (ss : List (String × Json)) :
    printedWarnings (writeSchemas w sh dir ss).2 = [] ∧
    ((writeSchemas w sh dir ss).1 = .ok () →
      results (writeSchemas w sh dir ss).2 =
        ss.map fun nj => (some (w.join dir (nj.1 ++ ".avsc")), nj.2)) := by
  induction ss with
  | nil => exact ⟨rfl, fun _ => rfl⟩
  | cons x ss ih =>
    obtain ⟨m, j⟩ := x
    simp only [writeSchemas]
    split
    · refine ⟨by simpa [printedWarnings] using ih.1, fun h => ?_⟩
      have := ih.2 h
      simp only [results, List.filterMap_cons, List.map_cons] at this ⊢
      rw [this]
    · exact ⟨rfl, fun h => by cases h⟩

/-- **C37, `idl2schemata`.** If extraction succeeds, all its warnings are printed; a run that
succeeds has written exactly the extracted schemas.  If extraction fails, the run fails, writes
nothing, and prints what the library keeps as warnings. -/
theorem C37_idl2schemata (w : World) (sh : Shell) (fuel : Nat) (input : String)
    (outdir : Option Path) (dirs : List Path) (r : Except CompileErr SchemataOutput) (b : Builder)
    (hcall : (dirs.foldl Builder.importDir Builder.new).extract w fuel input = (r, b)) :
    match r with
    | .ok out => printedWarnings (runIdl2schemata w sh fuel input outdir dirs).2 = out.warnings ∧
        ((runIdl2schemata w sh fuel input outdir dirs).1 = .ok () →
          results (runIdl2schemata w sh fuel input outdir dirs).2 =
            out.schemas.map fun nj => (some (w.join (outdir.getD ".") (nj.1 ++ ".avsc")), nj.2))
    | .error e => (runIdl2schemata w sh fuel input outdir dirs).1 = .error (.compile e) ∧
        results (runIdl2schemata w sh fuel input outdir dirs).2 = [] ∧
        printedWarnings (runIdl2schemata w sh fuel input outdir dirs).2 = b.drain.1 := by
  cases r with
  | error e =>
    simp only [runIdl2schemata, hcall]
    have h1 := results_map b.drain.1 []
    have h2 := printedWarnings_map b.drain.1 []
    simp only [List.append_nil] at h1 h2
    exact ⟨trivial, h1, by rw [h2]; simp [printedWarnings]⟩
  | ok out =>
    have h2 := printedWarnings_map out.warnings []
    simp only [List.append_nil] at h2
    have hnil : printedWarnings [] = [] := rfl
    simp only [runIdl2schemata, hcall]
    split
    · exact ⟨by rw [h2, hnil, List.append_nil], fun h => by cases h⟩
    · split
      · exact ⟨by rw [h2, hnil, List.append_nil], fun h => by cases h⟩
      · obtain ⟨h3, h4⟩ := writeSchemas_effects w sh (outdir.getD ".") out.schemas
        refine ⟨?_, fun h => ?_⟩
        · rw [printedWarnings_map]
          have : printedWarnings (.createDir (outdir.getD ".") ::
              (writeSchemas w sh (outdir.getD ".") out.schemas).2) = [] := by
            simpa [printedWarnings] using h3
          rw [this, List.append_nil]
        · rw [results_map]
          simpa [results] using h4 h

omit [CharTables] [FloatTables] [CaseTables] in
theorem writeSchemas_succeeds (w : World) (sh : Shell) (dir : Path) (ss : List (String × Json)) :
    (writeSchemas w sh dir ss).1 = .ok () ↔
      ∀ nj ∈ ss, sh.canWrite (w.join dir (nj.1 ++ ".avsc")) = true := by
  induction ss with
  | nil => simp [writeSchemas]
  | cons x ss ih =>
    obtain ⟨m, j⟩ := x
    simp only [writeSchemas]
    split
    · rename_i h
      simpa [h] using ih
    · rename_i h
      simp [h]

/-- Whether a result can be written there. -/
def CanWrite (sh : Shell) : Option Path → Prop
  | none => sh.stdoutOk = true
  | some p => sh.canWrite p = true

/-- **C37, when `idl` succeeds.** Exactly if the library call succeeds and its result can be written
to where `OUTPUT` says. -/
theorem C37_idl_succeeds (w : World) (sh : Shell) (fuel : Nat) (input output : Option String)
    (dirs : List Path) :
    (runIdl w sh fuel input output dirs).1 = .ok () ↔
      ∃ out b dest,
        idlConvert w sh fuel input (dirs.foldl Builder.importDir Builder.new) = some (.ok out, b) ∧
        GoesTo output dest ∧ CanWrite sh dest := by
  have hw : ∀ j : Json, (writeOutput sh output j).1 = .ok () ↔
      ∃ dest, GoesTo output dest ∧ CanWrite sh dest := by
    intro j
    cases output with
    | none =>
      refine ⟨fun h => ⟨none, .absent, ?_⟩, ?_⟩
      · simp only [writeOutput, Option.filter_none] at h
        split at h
        · assumption
        · cases h
      · rintro ⟨_, ⟨⟩, h⟩
        simp [writeOutput, show sh.stdoutOk = true from h]
    | some p =>
      by_cases hp : p = "-"
      · subst hp
        have std : writeOutput sh (some "-") j = writeOutput sh none j := rfl
        rw [std]
        refine ⟨fun h => ⟨none, .dash, ?_⟩, ?_⟩
        · simp only [writeOutput, Option.filter_none] at h
          split at h
          · assumption
          · cases h
        · rintro ⟨_, hg, h⟩
          cases hg with
          | dash => simp [writeOutput, show sh.stdoutOk = true from h]
          | path hne => exact absurd rfl hne
      · have : (some p).filter (fun s => decide (s ≠ "-")) = some p := by simp [hp]
        simp only [writeOutput, this]
        refine ⟨fun h => ⟨some p, .path hp, ?_⟩, ?_⟩
        · split at h
          · assumption
          · cases h
        · rintro ⟨_, hg, h⟩
          cases hg with
          | dash => exact absurd rfl hp
          | path _ => simp [show sh.canWrite p = true from h]
  cases hc : idlConvert w sh fuel input (dirs.foldl Builder.importDir Builder.new) with
  | none => simp [runIdl, hc]
  | some rb =>
    obtain ⟨r, b⟩ := rb
    cases r with
    | error e => simp [runIdl, hc]
    | ok out =>
      simp only [runIdl, hc, hw]
      constructor
      · rintro ⟨dest, h⟩
        exact ⟨out, b, dest, rfl, h⟩
      · rintro ⟨_, _, dest, _, h⟩
        exact ⟨dest, h⟩

/-- **C37, when `idl2schemata` succeeds.** Exactly if extraction succeeds, the output directory is
not the path of something else and can be created, and each schema file can be written. -/
theorem C37_idl2schemata_succeeds (w : World) (sh : Shell) (fuel : Nat) (input : String)
    (outdir : Option Path) (dirs : List Path) :
    (runIdl2schemata w sh fuel input outdir dirs).1 = .ok () ↔
      ∃ out b, (dirs.foldl Builder.importDir Builder.new).extract w fuel input = (.ok out, b) ∧
        (w.exists_ (outdir.getD ".") = true → w.isDir (outdir.getD ".") = true) ∧
        sh.canCreate (outdir.getD ".") = true ∧
        ∀ nj ∈ out.schemas, sh.canWrite (w.join (outdir.getD ".") (nj.1 ++ ".avsc")) = true := by
  rcases hc : (dirs.foldl Builder.importDir Builder.new).extract w fuel input with ⟨r, b⟩
  cases r with
  | error e => simp [runIdl2schemata, hc]
  | ok out =>
    simp only [runIdl2schemata, hc]
    have key : (∃ out' b', ((Except.ok out : Except CompileErr SchemataOutput), b) =
        (.ok out', b') ∧ (w.exists_ (outdir.getD ".") = true → w.isDir (outdir.getD ".") = true) ∧
        sh.canCreate (outdir.getD ".") = true ∧
        ∀ nj ∈ out'.schemas, sh.canWrite (w.join (outdir.getD ".") (nj.1 ++ ".avsc")) = true) ↔
        ((w.exists_ (outdir.getD ".") = true → w.isDir (outdir.getD ".") = true) ∧
        sh.canCreate (outdir.getD ".") = true ∧
        ∀ nj ∈ out.schemas, sh.canWrite (w.join (outdir.getD ".") (nj.1 ++ ".avsc")) = true) := by
      constructor
      · rintro ⟨_, _, he, h⟩
        cases he
        exact h
      · exact fun h => ⟨out, b, rfl, h⟩
    rw [key]
    split
    · rename_i h
      simp only [Bool.and_eq_true, Bool.not_eq_true'] at h
      simp [h.1, h.2]
    · rename_i h
      have h' : w.exists_ (outdir.getD ".") = true → w.isDir (outdir.getD ".") = true := by
        intro he
        cases hd : w.isDir (outdir.getD ".")
        · simp [he, hd] at h
        · rfl
      split
      · rename_i hcr
        simp only [Bool.not_eq_true'] at hcr
        simp [hcr]
      · rename_i hcr
        simp only [Bool.not_eq_true', Bool.not_eq_false] at hcr
        exact (writeSchemas_succeeds w sh (outdir.getD ".") out.schemas).trans
          ⟨fun h => ⟨h', hcr, h⟩, fun h => h.2.2⟩

/-- **C37, the output directory is in use.** If something else than a directory is at the path of
the output directory, the run fails and changes no file. -/
theorem C37_idl2schemata_in_the_way (w : World) (sh : Shell) (fuel : Nat) (input : String)
    (outdir : Option Path) (dirs : List Path) (hex : w.exists_ (outdir.getD ".") = true)
    (hnot : w.isDir (outdir.getD ".") = false) :
    (∃ e, (runIdl2schemata w sh fuel input outdir dirs).1 = .error e) ∧
    ∀ e ∈ (runIdl2schemata w sh fuel input outdir dirs).2, ∃ r, e = .stderr r := by
  rcases hc : (dirs.foldl Builder.importDir Builder.new).extract w fuel input with ⟨r, b⟩
  cases r with
  | error e =>
    simp only [runIdl2schemata, hc]
    exact ⟨⟨_, rfl⟩, fun e he => by obtain ⟨r, _, rfl⟩ := List.mem_map.1 he; exact ⟨r, rfl⟩⟩
  | ok out =>
    simp only [runIdl2schemata, hc, hex, hnot, Bool.not_false, Bool.and_self, if_true]
    exact ⟨⟨_, rfl⟩, fun e he => by obtain ⟨r, _, rfl⟩ := List.mem_map.1 he; exact ⟨r, rfl⟩⟩

end

/-! ### Examples -/

section
attribute [local instance] asciiTables exFloats exCases

/-- Declares `enum R` in the namespaces `a` and `b`, and `enum S`. -/
private def exCliWorld : World where
  join := fun d f => d ++ "/" ++ f
  parent := fun _ => some "/"
  fileName := fun p => some p
  exists_ := fun p => p == "/in"
  canonicalize := fun p => some p
  cwd := some "/"
  isDir := fun _ => false
  walk := fun _ => []
  read := fun p => some p
  parse := fun _ text => some ⟨[⟨.other, "protocol"⟩], [], .protocol ⟨0, [], "P",
    if text == "/in" then
      [.named (.enum ⟨0, [⟨"namespace", .str "\"a\"", none⟩], "R", [("X", none)], none, none⟩) none,
       .named (.enum ⟨0, [⟨"namespace", .str "\"b\"", none⟩], "R", [("Y", none)], none, none⟩) none]
    else [.named (.enum ⟨0, [], "S", [("X", none)], none, none⟩) none,
      .named (.enum ⟨0, [], "T", [], none, none⟩) none], none⟩,
    [exLexError "w"]⟩
  parseJson := fun _ => none

private def exShell : Shell := ⟨some "text", true, fun _ => true, fun _ => true⟩

theorem exCliWorld_join : JoinInjective exCliWorld := by
  intro d a b h
  have h1 := congrArg String.toList h
  simp only [exCliWorld, String.toList_append] at h1
  exact String.toList_inj.1 (List.append_cancel_left h1)

/-- Two schemas, two files, and the warning is printed. -/
example : (writtenPaths (runIdl2schemata exCliWorld exShell 9 "/other" (some "out") []).2,
    printedWarnings (runIdl2schemata exCliWorld exShell 9 "/other" (some "out") []).2,
    (runIdl2schemata exCliWorld exShell 9 "/other" (some "out") []).1.toOption) =
    (["out/S.avsc", "out/T.avsc"], [⟨.lexer (exLexError "w"), none⟩], some ()) := by decide

/-- A file is where the output directory should be. -/
example : (runIdl2schemata exCliWorld exShell 9 "/other" (some "/in") []).1.toOption = none ∧
    exCliWorld.exists_ "/in" = true ∧ exCliWorld.isDir "/in" = false := by decide

/-- Standard input to standard output. -/
example : ((results (runIdl exCliWorld exShell 9 none (some "-") []).2).map Prod.fst) = [none] := by
  decide

/-- **C33 fails.** Two types `a.R` and `b.R` give one file. -/
theorem C33_fails_same_simple_name :
    (((Builder.new.compileFile exCliWorld 9 "/in").1.toOption.map fun o => o.registry.names) =
      some ["a.R", "b.R"]) ∧
    (runIdl2schemata exCliWorld exShell 9 "/in" (some "out") []).1.toOption = some () ∧
    writtenPaths (runIdl2schemata exCliWorld exShell 9 "/in" (some "out") []).2 =
      ["out/R.avsc"] := by
  refine ⟨?_, ?_, ?_⟩ <;> decide

end

end Avdl.Props
