import Verif.Spec.TextOfFile
import Verif.Props.Layout
/-!
# C74: compiling a text and compiling the file with that text

A text that is compiled in the directory of a file gives what the file gives, unless the file is
imported by itself.
-/

namespace Avdl.Props
open Spec.TextOfFile

section
variable [CharTables] [FloatTables] [CaseTables]

/-- The context in which `q` has been imported before all else. -/
def Ctx.after (q : Path) (c : Ctx) : Ctx := { c with imported := c.imported ++ [q] }

/-- The outcome in such a context. -/
def afterStep {α : Type} (q : Path) (r : Outcome α) : Outcome α := (r.1, Ctx.after q r.2)

/-- The nested calls give the same for declarations that do not import `q`. -/
def Unaware (w : World) (dirs : List Path) (q : Path)
    (n : List DeclItem → Path → Ctx → Outcome Unit) : Prop :=
  ∀ ds dir c, ImportsNot w dirs q ds dir → n ds dir (Ctx.after q c) = afterStep q (n ds dir c)

omit [FloatTables] [CaseTables] in
theorem declareType_after (q : Path) (fuel : Nat) (s : Schema) (span : Option Span)
    (spans : List (String × Span)) (c : Ctx) :
    declareType fuel s span spans (Ctx.after q c) = afterStep q (declareType fuel s span spans c) := by
  unfold declareType
  show (match c.registry.register s with
    | .error e => _
    | .ok r => _) = _
  cases c.registry.register s with
  | error e => rfl
  | ok r =>
    dsimp only
    rcases validateRecordFieldDefaults r.find? fuel s with _ | _ | ⟨e, es⟩ <;> rfl

theorem resolveSingleImport_after {w : World} {dirs : List Path} {q : Path}
    (hf : ∀ p t file decls ws, w.read p = some t → parseIdl w t p = .ok (file, decls, ws) →
      ImportsNot w dirs q decls ((w.parent p).getD "."))
    {n : List DeclItem → Path → Ctx → Outcome Unit} (hn : Unaware w dirs q n) {i : ImportEntry}
    {dir : Path} (hi : resolveImport w dirs i.path dir ≠ .ok q) (c : Ctx) :
    resolveSingleImport w dirs n i dir (Ctx.after q c) =
      afterStep q (resolveSingleImport w dirs n i dir c) := by
  unfold resolveSingleImport
  cases hr : resolveImport w dirs i.path dir with
  | error e => rfl
  | ok p =>
    have hq : p ≠ q := fun h => hi (h ▸ hr)
    have hc : (Ctx.after q c).imported.contains p = c.imported.contains p := by
      show (c.imported ++ [q]).contains p = _
      rw [Bool.eq_iff_iff]
      simp [hq]
    dsimp only
    rw [hc]
    split
    · rfl
    · cases i.kind with
      | protocol =>
        dsimp only
        cases readJson w p with
        | error e => rfl
        | ok j =>
          dsimp only [Ctx.after, afterStep]
          cases importProtocol j c.registry <;> rfl
      | schema =>
        dsimp only
        cases readJson w p with
        | error e => rfl
        | ok j =>
          dsimp only [Ctx.after, afterStep]
          cases importSchema j c.registry <;> rfl
      | idl =>
        dsimp only
        cases h : readIdl w p with
        | error e => rfl
        | ok r =>
          obtain ⟨file, decls, ws⟩ := r
          unfold readIdl at h
          cases ht : w.read p with
          | none => rw [ht] at h; cases h
          | some t =>
            rw [ht] at h
            exact hn decls ((w.parent p).getD ".")
              { c with imported := p :: c.imported, messages := extendMessages c.messages file.messages,
                       warnings := c.warnings ++ importReports w p i.path ws }
              (hf p t file decls ws ht h)

theorem processItems_after {w : World} {dirs : List Path} {q : Path}
    (hf : ∀ p t file decls ws, w.read p = some t → parseIdl w t p = .ok (file, decls, ws) →
      ImportsNot w dirs q decls ((w.parent p).getD "."))
    {n : List DeclItem → Path → Ctx → Outcome Unit} (hn : Unaware w dirs q n) (fuel : Nat) :
    Unaware w dirs q (processItems w dirs fuel n) := by
  intro ds dir c ha
  induction ds generalizing c with
  | nil => rfl
  | cons d ds ih =>
    have ih := fun c => ih c fun i hi => ha i (List.mem_cons_of_mem _ hi)
    cases d with
    | import_ i =>
      rw [processItems, processItems,
        resolveSingleImport_after hf hn (ha i List.mem_cons_self)]
      generalize resolveSingleImport w dirs n i dir c = r
      obtain ⟨_ | _, c'⟩ := r
      · rfl
      · exact ih c'
    | type s span spans =>
      rw [processItems, processItems, declareType_after]
      generalize declareType fuel s span spans c = r
      obtain ⟨_ | _, c'⟩ := r
      · rfl
      · exact ih c'

theorem processDecls_after {w : World} {dirs : List Path} {q : Path}
    (hf : ∀ p t file decls ws, w.read p = some t → parseIdl w t p = .ok (file, decls, ws) →
      ImportsNot w dirs q decls ((w.parent p).getD ".")) (fuel depth : Nat) :
    Unaware w dirs q (processDecls w dirs fuel depth) := by
  induction depth with
  | zero => exact fun _ _ _ _ => rfl
  | succ depth ih => exact processItems_after hf ih fuel

theorem compile_after {w : World} {b : Builder} {q : Path} {text name : String} {dir : Path}
    (h : NotImported w b.importDirs q text name dir) (fuel : Nat) :
    b.compile w fuel text name dir (some q) = b.compile w fuel text name dir none := by
  unfold Builder.compile parseAndResolve
  dsimp only
  cases hp : parseIdl w text name with
  | error e => rfl
  | ok r =>
    obtain ⟨file, decls, ws⟩ := r
    dsimp only
    have hd := processDecls_after h.files fuel fuel decls dir
      { Ctx.new with warnings := Ctx.new.warnings ++ ws.map fun x => ⟨x, none⟩ } (h.text _ _ _ hp)
    have e1 : ∀ x : List Report, ({ Ctx.new with warnings := x, imported := (some q).toList ++ [] } : Ctx) =
        Ctx.after q { Ctx.new with warnings := x } := fun _ => rfl
    show (match (match processDecls w b.importDirs fuel fuel decls dir
        (Ctx.after q { Ctx.new with warnings := Ctx.new.warnings ++ ws.map fun x => ⟨x, none⟩ }) with
        | (.error e, c') => ((.error e, c') : Outcome IdlFile)
        | (.ok (), c') => (.ok (finishFile file c'), c')) with
      | (.error e, c) => _
      | (.ok file, c) => _) = _
    rw [hd]
    show _ = (match (match processDecls w b.importDirs fuel fuel decls dir
        { Ctx.new with warnings := Ctx.new.warnings ++ ws.map fun x => ⟨x, none⟩ } with
        | (.error e, c') => ((.error e, c') : Outcome IdlFile)
        | (.ok (), c') => (.ok (finishFile file c'), c')) with
      | (.error e, c) => _
      | (.ok file, c) => _)
    generalize processDecls w b.importDirs fuel fuel decls dir _ = r
    obtain ⟨_ | _, c'⟩ := r
    · rfl
    · rfl

/-- The text compiled in the directory of the file, under the name of the file. -/
theorem compileStr_eq_compileFile {w : World} {b : Builder} {path : Path} {text : String}
    (hr : w.read path = some text) (hd : w.cwd = some (directory w path))
    (h : ∀ q, w.canonicalize path = some q →
      NotImported w b.importDirs q text path (directory w path)) (fuel : Nat) :
    b.compileStr w fuel text path = b.compileFile w fuel path := by
  unfold Builder.compileStr Builder.compileFile
  rw [hr, hd]
  show b.compile w fuel text path (directory w path) none =
    b.compile w fuel text path (directory w path) (w.canonicalize path)
  cases hq : w.canonicalize path with
  | none => rfl
  | some q => exact (compile_after (h q hq) fuel).symm

/-- **C74.**  Compiling the text of a file in the directory of the file is compiling the file,
unless the file is imported. -/
theorem C74_convert_partial {w : World} {b : Builder} {path : Path} {text : String}
    (hr : w.read path = some text) (hd : w.cwd = some (directory w path))
    (h : ∀ q, w.canonicalize path = some q →
      NotImported w b.importDirs q text path (directory w path)) (fuel : Nat) :
    b.convertStr w fuel text path = b.convert w fuel path := by
  unfold Builder.convertStr Builder.convert
  rw [compileStr_eq_compileFile hr hd h]

/-- **C74, schemata.** -/
theorem C74_extract_partial {w : World} {b : Builder} {path : Path} {text : String}
    (hr : w.read path = some text) (hd : w.cwd = some (directory w path))
    (h : ∀ q, w.canonicalize path = some q →
      NotImported w b.importDirs q text path (directory w path)) (hf : w.isDir path = false)
    (fuel : Nat) : b.extractStr w fuel text path = b.extract w fuel path := by
  unfold Builder.extractStr Builder.extract
  rw [hf, compileStr_eq_compileFile hr hd h]
  rfl

end

/-! ## Examples -/

section
attribute [local instance] asciiTables exFloats exCases

/-- A file that imports another one. -/
def exPlainImport (p : Path) : Option String :=
  if p = "a" then some "protocol P{import idl \"b\";record R{B b;}}"
  else if p = "b" then some "enum B{C}"
  else none

/-- A file that imports itself. -/
def exSelfImport (p : Path) : Option String :=
  if p = "a" then some "protocol P{import idl \"a\";record R{}}" else none

/-- Whether the text of the file compiles. -/
def exCompilesText (read : Path → Option String) (text : String) : Bool :=
  match (Builder.new.convertStr (exLayoutWorld read) 9 text "a").1 with
  | .ok _ => true
  | .error _ => false

/-- A text that imports its file is rejected, since the types of the file are then declared twice,
although the file is accepted. -/
theorem C74_fails_self_import : (exDocument exSelfImport).isSome = true ∧
    exCompilesText exSelfImport "protocol P{import idl \"a\";record R{}}" = false := by
  decide +kernel

/-- The imports of a text. -/
def importPaths [CharTables] [FloatTables] [CaseTables] (w : World) (text name : String) :
    List String :=
  match parseIdl w text name with
  | .error _ => []
  | .ok r => r.2.1.filterMap fun | .import_ i => some i.path | .type .. => none

theorem importsNot_of_paths {w : World} {q : Path} {text name : String} {dir : Path}
    (hw : ∀ f d, resolveImport w [] f d ≠ .ok q ∨ f = q)
    (h : q ∉ importPaths w text name) :
    ∀ file decls ws, parseIdl w text name = .ok (file, decls, ws) → ImportsNot w [] q decls dir := by
  intro file decls ws hp i hi
  unfold importPaths at h
  rw [hp] at h
  rcases hw i.path dir with h1 | h1
  · exact h1
  · refine absurd (List.mem_filterMap.mpr ⟨_, hi, ?_⟩) h
    exact congrArg some h1

example : NotImported (exLayoutWorld exPlainImport) [] "a"
    "protocol P{import idl \"b\";record R{B b;}}" "a" (directory (exLayoutWorld exPlainImport) "a") := by
  have hw : ∀ f d, resolveImport (exLayoutWorld exPlainImport) [] f d ≠ .ok "a" ∨ f = "a" := by
    intro f d
    by_cases hf : f = "a"
    · exact .inr hf
    · left
      unfold resolveImport searchDirs searchDirs
      by_cases hs : (exLayoutWorld exPlainImport).exists_ ((exLayoutWorld exPlainImport).join d f) = true
      · rw [if_pos hs]
        intro h
        injection h with h
        exact hf h
      · rw [if_neg hs]
        exact nofun
  refine ⟨importsNot_of_paths hw (by decide +kernel), ?_⟩
  intro p t file decls ws ht
  have : p = "a" ∨ p = "b" := by
    by_contra hc
    rw [not_or] at hc
    change (if p = "a" then _ else if p = "b" then _ else none) = _ at ht
    rw [if_neg hc.1, if_neg hc.2] at ht
    cases ht
  rcases this with rfl | rfl <;>
  · obtain rfl := Option.some.inj ht
    exact importsNot_of_paths hw (by decide +kernel) file decls ws

example : exCompilesText exPlainImport "protocol P{import idl \"b\";record R{B b;}}" = true := by
  decide +kernel

end

end Avdl.Props
