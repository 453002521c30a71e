import Verif.Spec.SearchPath
import Verif.Props.Layout
/-!
# C72: additional import directories

A directory added behind the other import directories matters only to compilations that fail
because an imported file is found nowhere; an empty one matters to none.
-/

namespace Avdl.Props
open Spec.SearchPath

section
variable [CharTables] [FloatTables] [CaseTables]

/-- Where the two lists of directories agree on an import or the first does not find it. -/
def Extends (w : World) (ds ds' : List Path) : Prop :=
  ∀ file dir, (∃ e, resolveImport w ds file dir = .error e ∧ MissingImport e) ∨
    resolveImport w ds' file dir = resolveImport w ds file dir

/-- A step that fails because an import is missing, or two equal ones. -/
def SameStep {α : Type} (r r' : Outcome α) : Prop :=
  (∃ e, r.1 = .error e ∧ MissingImport e) ∨ r' = r

omit [CharTables] [FloatTables] [CaseTables] in
theorem searchDirs_append {w : World} {file : String} {ds : List Path} {p : Path}
    (h : searchDirs w file ds = some p) (es : List Path) :
    searchDirs w file (ds ++ es) = some p := by
  induction ds with
  | nil => cases h
  | cons d ds ih =>
    rw [List.cons_append]
    unfold searchDirs at h ⊢
    split
    · next hd => rwa [if_pos hd] at h
    · next hd => rw [if_neg hd] at h; exact ih h

omit [CharTables] [FloatTables] [CaseTables] in
theorem extends_append (w : World) (ds es : List Path) : Extends w ds (ds ++ es) := by
  intro file dir
  unfold resolveImport
  cases h : searchDirs w file (dir :: ds) with
  | none => exact .inl ⟨_, rfl, .notFound⟩
  | some p =>
    rw [show dir :: (ds ++ es) = (dir :: ds) ++ es from rfl, searchDirs_append h es]
    exact .inr rfl

omit [CharTables] [FloatTables] [CaseTables] in
theorem searchDirs_empty {w : World} {es : List Path} (he : ∀ d ∈ es, Empty w d) (file : String)
    (x y : List Path) : searchDirs w file (x ++ es ++ y) = searchDirs w file (x ++ y) := by
  induction x with
  | nil =>
    induction es with
    | nil => rfl
    | cons d es ih =>
      rw [List.nil_append, List.nil_append, List.cons_append, searchDirs,
        he d List.mem_cons_self file]
      exact ih fun d hd => he d (List.mem_cons_of_mem _ hd)
  | cons d x ih =>
    rw [List.cons_append, List.cons_append, List.cons_append, searchDirs, searchDirs, ih]

omit [CharTables] [FloatTables] [CaseTables] in
theorem extends_empty {w : World} {es : List Path} (he : ∀ d ∈ es, Empty w d) (x y : List Path) :
    Extends w (x ++ y) (x ++ es ++ y) ∧ Extends w (x ++ es ++ y) (x ++ y) := by
  have h : ∀ file dir, searchDirs w file (dir :: (x ++ es ++ y)) =
      searchDirs w file (dir :: (x ++ y)) := fun file dir => searchDirs_empty he file (dir :: x) y
  constructor <;>
  · intro file dir
    unfold resolveImport
    rw [h]
    cases searchDirs w file (dir :: (x ++ y)) with
    | none => exact .inl ⟨_, rfl, .notFound⟩
    | some p => exact .inr rfl

theorem resolveSingleImport_extends {w : World} {ds ds' : List Path} (h : Extends w ds ds')
    {nested nested' : List DeclItem → Path → Ctx → Outcome Unit}
    (hn : ∀ items dir c, SameStep (nested items dir c) (nested' items dir c))
    (i : ImportEntry) (dir : Path) (c : Ctx) :
    SameStep (resolveSingleImport w ds nested i dir c) (resolveSingleImport w ds' nested' i dir c) := by
  unfold resolveSingleImport
  rcases h i.path dir with ⟨e, he, hm⟩ | he
  · rw [he]
    exact .inl ⟨_, rfl, .at_ hm⟩
  · rw [he]
    cases resolveImport w ds i.path dir with
    | error e => exact .inr rfl
    | ok p =>
      dsimp only
      split
      · exact .inr rfl
      · cases i.kind with
        | protocol => exact .inr rfl
        | schema => exact .inr rfl
        | idl =>
          dsimp only
          cases readIdl w p with
          | error e => exact .inr rfl
          | ok r => exact hn _ _ _

theorem processItems_extends {w : World} {ds ds' : List Path} (h : Extends w ds ds') (fuel : Nat)
    {nested nested' : List DeclItem → Path → Ctx → Outcome Unit}
    (hn : ∀ items dir c, SameStep (nested items dir c) (nested' items dir c))
    (items : List DeclItem) (dir : Path) (c : Ctx) :
    SameStep (processItems w ds fuel nested items dir c)
      (processItems w ds' fuel nested' items dir c) := by
  induction items generalizing c with
  | nil => exact .inr rfl
  | cons item items ih =>
    cases item with
    | import_ i =>
      rw [processItems, processItems]
      rcases resolveSingleImport_extends h hn i dir c with ⟨e, he, hm⟩ | he
      · generalize resolveSingleImport w ds nested i dir c = r at he
        obtain ⟨r, c'⟩ := r
        cases he
        exact .inl ⟨e, rfl, hm⟩
      · rw [he]
        generalize resolveSingleImport w ds nested i dir c = r
        obtain ⟨_ | _, c'⟩ := r
        · exact .inr rfl
        · exact ih c'
    | type s span spans =>
      rw [processItems, processItems]
      generalize declareType fuel s span spans c = r
      obtain ⟨_ | _, c'⟩ := r
      · exact .inr rfl
      · exact ih c'

theorem processDecls_extends {w : World} {ds ds' : List Path} (h : Extends w ds ds') (fuel : Nat)
    (depth : Nat) (items : List DeclItem) (dir : Path) (c : Ctx) :
    SameStep (processDecls w ds fuel depth items dir c)
      (processDecls w ds' fuel depth items dir c) := by
  induction depth generalizing items dir c with
  | zero => exact .inr rfl
  | succ depth ih => exact processItems_extends h fuel ih items dir c

/-- The outcome with other directories. -/
def Redirected {α : Type} (ds ds' : List Path) (r r' : Except CompileErr α × Builder) : Prop :=
  Missing r ∨ r.2.importDirs = ds ∧ r' = (r.1, { r.2 with importDirs := ds' })

theorem compile_extends {w : World} {ds ds' : List Path} (h : Extends w ds ds') (acc : List Report)
    (fuel : Nat) (text name : String) (dir : Path) (path : Option Path) :
    Redirected ds ds' (Builder.compile ⟨ds, acc⟩ w fuel text name dir path)
      (Builder.compile ⟨ds', acc⟩ w fuel text name dir path) := by
  unfold Builder.compile parseAndResolve
  dsimp only
  cases parseIdl w text name with
  | error e => exact .inr ⟨rfl, rfl⟩
  | ok r =>
    obtain ⟨file, decls, ws⟩ := r
    dsimp only
    generalize Ctx.mk _ _ _ _ _ = c
    rcases processDecls_extends h fuel fuel decls dir c with ⟨e, he, hm⟩ | he
    · generalize processDecls w ds fuel fuel decls dir c = r at he
      obtain ⟨r, c'⟩ := r
      cases he
      exact .inl ⟨e, rfl, hm⟩
    · rw [he]
      generalize processDecls w ds fuel fuel decls dir c = r
      obtain ⟨_ | _, c'⟩ := r
      · exact .inr ⟨rfl, rfl⟩
      · dsimp only
        cases validateAllReferences (finishFile file c') c'.registry with
        | error e => exact .inr ⟨rfl, rfl⟩
        | ok _ => exact .inr ⟨rfl, rfl⟩

theorem compileFile_extends {w : World} {ds ds' : List Path} (h : Extends w ds ds')
    (acc : List Report) (fuel : Nat) (path : Path) :
    Redirected ds ds' (Builder.compileFile ⟨ds, acc⟩ w fuel path)
      (Builder.compileFile ⟨ds', acc⟩ w fuel path) := by
  unfold Builder.compileFile
  cases w.read path with
  | none => exact .inr ⟨rfl, rfl⟩
  | some text => exact compile_extends h acc fuel text path _ _

theorem compileStr_extends {w : World} {ds ds' : List Path} (h : Extends w ds ds')
    (acc : List Report) (fuel : Nat) (text name : String) :
    Redirected ds ds' (Builder.compileStr ⟨ds, acc⟩ w fuel text name)
      (Builder.compileStr ⟨ds', acc⟩ w fuel text name) := by
  unfold Builder.compileStr
  cases w.cwd with
  | none => exact .inr ⟨rfl, rfl⟩
  | some dir => exact compile_extends h acc fuel text name dir none

omit [CharTables] [FloatTables] [CaseTables] in
theorem convertImpl_extends {ds ds' : List Path} (fuel : Nat)
    {r r' : Except CompileErr CompileOutput × Builder} (h : Redirected ds ds' r r') :
    Redirected ds ds' (convertImpl fuel r) (convertImpl fuel r') := by
  obtain ⟨x, b⟩ := r
  rcases h with ⟨e, he, hm⟩ | ⟨hb, rfl⟩
  · cases he
    exact .inl ⟨e, rfl, hm⟩
  · unfold convertImpl
    cases x with
    | error e => exact .inr ⟨hb, rfl⟩
    | ok out =>
      dsimp only
      cases out.file with
      | named ss => exact .inr ⟨hb, rfl⟩
      | schema s =>
        dsimp only
        cases outputJson fuel out with
        | none => exact .inr ⟨hb, rfl⟩
        | some j => exact .inr ⟨hb, rfl⟩
      | protocol p =>
        dsimp only
        cases outputJson fuel out with
        | none => exact .inr ⟨hb, rfl⟩
        | some j => exact .inr ⟨hb, rfl⟩

omit [CharTables] [FloatTables] [CaseTables] in
theorem extractFrom_extends {ds ds' : List Path} (fuel : Nat)
    {r r' : Except CompileErr CompileOutput × Builder} (h : Redirected ds ds' r r') :
    Redirected ds ds' (extractFrom fuel r) (extractFrom fuel r') := by
  obtain ⟨x, b⟩ := r
  rcases h with ⟨e, he, hm⟩ | ⟨hb, rfl⟩
  · cases he
    exact .inl ⟨e, rfl, hm⟩
  · unfold extractFrom
    cases x with
    | error e => exact .inr ⟨hb, rfl⟩
    | ok out => exact .inr ⟨hb, rfl⟩

theorem extractFiles_extends {w : World} {ds ds' : List Path} (h : Extends w ds ds')
    (acc : List Report) (fuel : Nat) (paths : List Path) :
    Redirected ds ds' (Builder.extractFiles w fuel paths ⟨ds, acc⟩)
      (Builder.extractFiles w fuel paths ⟨ds', acc⟩) := by
  induction paths generalizing acc with
  | nil => exact .inr ⟨rfl, rfl⟩
  | cons p ps ih =>
    rw [Builder.extractFiles, Builder.extractFiles]
    have h1 := extractFrom_extends fuel (compileFile_extends h acc fuel p)
    generalize extractFrom fuel (Builder.compileFile ⟨ds, acc⟩ w fuel p) = r at h1
    generalize extractFrom fuel (Builder.compileFile ⟨ds', acc⟩ w fuel p) = r' at h1
    obtain ⟨x, b⟩ := r
    rcases h1 with ⟨e, he, hm⟩ | ⟨hb, rfl⟩
    · cases he
      exact .inl ⟨e, rfl, hm⟩
    · obtain ⟨bd, ba⟩ := b
      cases hb
      cases x with
      | error e => exact .inr ⟨rfl, rfl⟩
      | ok out =>
        dsimp only
        have h2 := ih ba
        generalize Builder.extractFiles w fuel ps ⟨bd, ba⟩ = r at h2
        generalize Builder.extractFiles w fuel ps ⟨ds', ba⟩ = r' at h2
        obtain ⟨x, b⟩ := r
        rcases h2 with ⟨e, he, hm⟩ | ⟨hb, rfl⟩
        · cases he
          exact .inl ⟨e, rfl, hm⟩
        · cases x with
          | error e => exact .inr ⟨hb, rfl⟩
          | ok out => exact .inr ⟨hb, rfl⟩

theorem extract_extends {w : World} {ds ds' : List Path} (h : Extends w ds ds')
    (acc : List Report) (fuel : Nat) (path : Path) :
    Redirected ds ds' (Builder.extract ⟨ds, acc⟩ w fuel path)
      (Builder.extract ⟨ds', acc⟩ w fuel path) := by
  unfold Builder.extract
  split
  · exact extractFiles_extends h acc fuel _
  · exact extractFrom_extends fuel (compileFile_extends h acc fuel path)

omit [CharTables] [FloatTables] [CaseTables] in
theorem Redirected.same {α : Type} {ds ds' : List Path} {r r' : Except CompileErr α × Builder}
    (h : Redirected ds ds' r r') : Missing r ∨ SameOutcome r r' := by
  rcases h with h | ⟨_, rfl⟩
  · exact .inl h
  · exact .inr ⟨rfl, rfl⟩

omit [CharTables] [FloatTables] [CaseTables] in
/-- Adding directories one by one. -/
theorem importDirs_added (es : List Path) (b : Builder) :
    es.foldl Builder.importDir b = ⟨b.importDirs ++ es, b.accumulated⟩ := by
  induction es generalizing b with
  | nil => rw [List.append_nil]; rfl
  | cons d es ih => rw [List.foldl_cons, ih, Builder.importDir, List.append_assoc]; rfl

/-- **C72, files.**  Unless the compilation fails because an import is not found, it is the same with
more import directories behind the others. -/
theorem C72_more_directories (b : Builder) (es : List Path) (w : World) (fuel : Nat) (path : Path) :
    Missing (b.convert w fuel path) ∨
      SameOutcome (b.convert w fuel path) ((es.foldl Builder.importDir b).convert w fuel path) := by
  rw [importDirs_added]
  exact (convertImpl_extends fuel (compileFile_extends (extends_append w _ es) _ fuel path)).same

/-- **C72, texts.** -/
theorem C72_more_directories_str (b : Builder) (es : List Path) (w : World) (fuel : Nat)
    (text name : String) : Missing (b.convertStr w fuel text name) ∨
      SameOutcome (b.convertStr w fuel text name)
        ((es.foldl Builder.importDir b).convertStr w fuel text name) := by
  rw [importDirs_added]
  exact (convertImpl_extends fuel (compileStr_extends (extends_append w _ es) _ fuel text name)).same

/-- **C72, schemata** of a file or directory. -/
theorem C72_more_directories_schemata (b : Builder) (es : List Path) (w : World) (fuel : Nat)
    (path : Path) : Missing (b.extract w fuel path) ∨
      SameOutcome (b.extract w fuel path) ((es.foldl Builder.importDir b).extract w fuel path) := by
  rw [importDirs_added]
  exact (extract_extends (extends_append w _ es) _ fuel path).same

/-- **C72, schemata of a text.** -/
theorem C72_more_directories_schemata_str (b : Builder) (es : List Path) (w : World) (fuel : Nat)
    (text name : String) : Missing (b.extractStr w fuel text name) ∨
      SameOutcome (b.extractStr w fuel text name)
        ((es.foldl Builder.importDir b).extractStr w fuel text name) := by
  rw [importDirs_added]
  exact (extractFrom_extends fuel (compileStr_extends (extends_append w _ es) _ fuel text name)).same

/-- **C72, empty directories.**  Directories without files may stand anywhere among the others: the
outcome is the same, or both compilations fail because an import is not found. -/
theorem C72_empty_directories {w : World} {es : List Path} (he : ∀ d ∈ es, Empty w d)
    (x y : List Path) (acc : List Report) (fuel : Nat) (path : Path) :
    (Missing (Builder.convert ⟨x ++ y, acc⟩ w fuel path) ∧
        Missing (Builder.convert ⟨x ++ es ++ y, acc⟩ w fuel path)) ∨
      SameOutcome (Builder.convert ⟨x ++ y, acc⟩ w fuel path)
        (Builder.convert ⟨x ++ es ++ y, acc⟩ w fuel path) := by
  obtain ⟨h, h'⟩ := extends_empty he x y
  rcases (convertImpl_extends fuel (compileFile_extends h acc fuel path)).same with h1 | h1
  · rcases (convertImpl_extends fuel (compileFile_extends h' acc fuel path)).same with h2 | h2
    · exact .inl ⟨h1, h2⟩
    · exact .inr ⟨h2.1.symm, h2.2.symm⟩
  · exact .inr h1

end

/-! ## An example -/

section
attribute [local instance] asciiTables exFloats exCases

/-- A file that imports `b`, which is found in two directories. -/
def exTwoDirs (p : Path) : Option String :=
  if p = "m/a" then some "protocol P{import idl \"b\";}"
  else if p = "x/b" then some "enum B{C}"
  else if p = "y/b" then some "enum D{E}"
  else none

/-- The world with these files. -/
def exTwoDirsWorld : World :=
  { exLayoutWorld exTwoDirs with join := fun d f => d ++ "/" ++ f, parent := fun _ => some "m" }

/-- The document of the file, with these import directories. -/
def exDirsDocument (ds : List Path) : Option Json :=
  match ((ds.foldl Builder.importDir Builder.new).convert exTwoDirsWorld 9 "m/a").1 with
  | .ok out => some out.json
  | .error _ => none

/-- Without import directories the import is missing; that is why a directory matters then. -/
example : exDirsDocument [] = none := by decide +kernel
example : (exDirsDocument ["x"]).isSome = true := by decide +kernel
/-- A second directory with another `b` does not matter behind the first, but in front of it. -/
example : exDirsDocument ["x", "y"] = exDirsDocument ["x"] := by decide +kernel
example : exDirsDocument ["y", "x"] ≠ exDirsDocument ["x"] := by decide +kernel
/-- An empty directory. -/
example : Empty exTwoDirsWorld "z" := by
  intro f
  have h : ∀ s : String, s.toList.head? = some 'z' → exTwoDirs s = none := by
    intro s hs
    unfold exTwoDirs
    rw [if_neg, if_neg, if_neg] <;> (rintro rfl; revert hs; decide)
  show (exTwoDirs ("z" ++ "/" ++ f)).isSome = false
  rw [h _ (by simp)]
  rfl

end

end Avdl.Props
