import Verif.Spec.Contexts
import Verif.Lemmas.Positions
/-!
# Lemmas: the contexts of errors
-/

namespace Avdl
open Spec

/-- Forgetting the contexts. -/
def forget {α : Type} : Except Failure α → Except CompileErr α
  | .error f => .error f.error
  | .ok a => .ok a

theorem forget_addContext {α : Type} (r : Except Failure α) (x : Context) :
    forget (addContext r x) = forget r := by cases r <;> rfl

section
variable [CharTables] [FloatTables] [CaseTables]

theorem parseIdlE_forget (w : World) (text name : String) :
    forget (parseIdlE w text name) = parseIdl w text name := by
  unfold parseIdlE parseIdl
  cases w.parse name text with
  | none => rfl
  | some src =>
    simp only
    cases readFile src.tokens src.ast <;> rfl

theorem readIdlE_forget (w : World) (p : Path) : forget (readIdlE w p) = readIdl w p := by
  unfold readIdlE readIdl
  cases w.read p with
  | none => rfl
  | some t => simp only [forget_addContext, parseIdlE_forget]

theorem resolveSingleImportE_forget (w : World) (dirs : List Path)
    (nested : List DeclItem → Path → Ctx → Explained Unit)
    (nested' : List DeclItem → Path → Ctx → Outcome Unit)
    (hn : ∀ items dir c, Prod.map forget id (nested items dir c) = nested' items dir c)
    (i : ImportEntry) (dir : Path) (c : Ctx) :
    Prod.map forget id (resolveSingleImportE w dirs nested i dir c) =
      resolveSingleImport w dirs nested' i dir c := by
  unfold resolveSingleImportE resolveSingleImport
  cases resolveImport w dirs i.path dir with
  | error e => rfl
  | ok p =>
    simp only
    split
    · rfl
    · cases i.kind with
      | protocol =>
        simp only
        cases readJson w p with
        | error e => rfl
        | ok j =>
          simp only
          cases importProtocol j c.registry <;> rfl
      | schema =>
        simp only
        cases readJson w p with
        | error e => rfl
        | ok j =>
          simp only
          cases importSchema j c.registry <;> rfl
      | idl =>
        simp only
        rw [← readIdlE_forget w p]
        cases readIdlE w p with
        | error f => rfl
        | ok r =>
          obtain ⟨file, decls, ws⟩ := r
          simp only [forget]
          rw [← hn]
          simp only [Prod.map, forget_addContext, id]

theorem processItemsE_forget (w : World) (dirs : List Path) (fuel : Nat)
    (nested : List DeclItem → Path → Ctx → Explained Unit)
    (nested' : List DeclItem → Path → Ctx → Outcome Unit)
    (hn : ∀ items dir c, Prod.map forget id (nested items dir c) = nested' items dir c) :
    ∀ (items : List DeclItem) (dir : Path) (c : Ctx),
    Prod.map forget id (processItemsE w dirs fuel nested items dir c) =
      processItems w dirs fuel nested' items dir c
  | [], _, _ => rfl
  | .import_ i :: items, dir, c => by
      simp only [processItemsE, processItems]
      rw [← resolveSingleImportE_forget w dirs nested nested' hn]
      cases resolveSingleImportE w dirs nested i dir c with
      | mk r c' =>
        cases r with
        | error f => rfl
        | ok _ => exact processItemsE_forget w dirs fuel nested nested' hn items dir c'
  | .type s span spans :: items, dir, c => by
      simp only [processItemsE, processItems]
      cases declareType fuel s span spans c with
      | mk r c' =>
        cases r with
        | error f => rfl
        | ok _ => exact processItemsE_forget w dirs fuel nested nested' hn items dir c'

theorem processDeclsE_forget (w : World) (dirs : List Path) (fuel : Nat) :
    ∀ (depth : Nat) (items : List DeclItem) (dir : Path) (c : Ctx),
    Prod.map forget id (processDeclsE w dirs fuel depth items dir c) =
      processDecls w dirs fuel depth items dir c
  | 0, _, _, _ => rfl
  | depth + 1, items, dir, c =>
      processItemsE_forget w dirs fuel _ _ (processDeclsE_forget w dirs fuel depth) items dir c

theorem parseAndResolveE_forget (w : World) (dirs : List Path) (fuel : Nat) (text name : String)
    (dir : Path) (path : Option Path) (c : Ctx) :
    Prod.map forget id (parseAndResolveE w dirs fuel text name dir path c) =
      parseAndResolve w dirs fuel text name dir path c := by
  unfold parseAndResolveE parseAndResolve
  rw [← parseIdlE_forget w text name]
  cases parseIdlE w text name with
  | error f => rfl
  | ok r =>
    obtain ⟨file, decls, ws⟩ := r
    simp only [forget, addContext]
    rw [← processDeclsE_forget]
    cases processDeclsE w dirs fuel fuel decls dir _ with
    | mk r c' => cases r <;> rfl

theorem compileE_forget (b : Builder) (w : World) (fuel : Nat) (text name : String)
    (dir : Path) (path : Option Path) :
    Prod.map forget id (b.compileE w fuel text name dir path) =
      b.compile w fuel text name dir path := by
  unfold Builder.compileE Builder.compile
  simp only
  rw [← parseAndResolveE_forget]
  cases parseAndResolveE w b.importDirs fuel text name dir path Ctx.new with
  | mk r c' =>
    cases r with
    | error f => rfl
    | ok file =>
      simp only [Prod.map, forget, id]
      cases validateAllReferences file c'.registry <;> rfl

/-! ### Files met stay met -/

omit [FloatTables] [CaseTables] in
theorem declareType_imported (fuel : Nat) (s : Schema) (span : Option Span)
    (spans : List (String × Span)) (c : Ctx) :
    (declareType fuel s span spans c).2.imported = c.imported := by
  unfold declareType
  split
  · rfl
  · split <;> rfl

theorem resolveSingleImportE_imported {w : World} {dirs : List Path}
    {nested : List DeclItem → Path → Ctx → Explained Unit}
    (hn : ∀ items dir c, ∀ p ∈ c.imported, p ∈ (nested items dir c).2.imported)
    (i : ImportEntry) (dir : Path) (c : Ctx) :
    ∀ p ∈ c.imported, p ∈ (resolveSingleImportE w dirs nested i dir c).2.imported := by
  intro p hp
  unfold resolveSingleImportE
  split
  · exact hp
  · split
    · exact hp
    · simp only
      split
      · split
        · exact List.mem_cons_of_mem _ hp
        · split <;> exact List.mem_cons_of_mem _ hp
      · split
        · exact List.mem_cons_of_mem _ hp
        · split <;> exact List.mem_cons_of_mem _ hp
      · split
        · exact List.mem_cons_of_mem _ hp
        · exact hn _ _ _ _ (List.mem_cons_of_mem _ hp)

theorem processItemsE_imported {w : World} {dirs : List Path} {fuel : Nat}
    {nested : List DeclItem → Path → Ctx → Explained Unit}
    (hn : ∀ items dir c, ∀ p ∈ c.imported, p ∈ (nested items dir c).2.imported) :
    ∀ (items : List DeclItem) (dir : Path) (c : Ctx),
    ∀ p ∈ c.imported, p ∈ (processItemsE w dirs fuel nested items dir c).2.imported
  | [], _, _, _, hp => hp
  | .import_ i :: items, dir, c, p, hp => by
      have h := resolveSingleImportE_imported (w := w) (dirs := dirs) hn i dir c p hp
      simp only [processItemsE]
      cases hr : resolveSingleImportE w dirs nested i dir c with
      | mk r c' =>
        rw [hr] at h
        cases r with
        | error f => exact h
        | ok _ => exact processItemsE_imported hn items dir c' p h
  | .type s span spans :: items, dir, c, p, hp => by
      have h := declareType_imported fuel s span spans c
      simp only [processItemsE]
      cases hr : declareType fuel s span spans c with
      | mk r c' =>
        rw [hr] at h
        simp only at h
        cases r with
        | error f => simp only; rw [h]; exact hp
        | ok _ => exact processItemsE_imported hn items dir c' p (by rw [h]; exact hp)

theorem processDeclsE_imported {w : World} {dirs : List Path} {fuel : Nat} :
    ∀ (depth : Nat) (items : List DeclItem) (dir : Path) (c : Ctx),
    ∀ p ∈ c.imported, p ∈ (processDeclsE w dirs fuel depth items dir c).2.imported
  | 0, _, _, _, _, hp => hp
  | depth + 1, items, dir, c, p, hp =>
      processItemsE_imported (processDeclsE_imported depth) items dir c p hp

/-! ### What the contexts say -/

/-- The part of `ErrorExplained` about the declarations of a file. -/
def Located (w : World) (dirs : List Path) (s : SourceFile) (seen : List Path) (f : Failure) : Prop :=
  ∃ ps u, ImportChain w dirs s ps u ∧ ps.Nodup ∧ (∀ p ∈ ps, p ∉ seen) ∧
    ((f.contexts = ps.map .nested ∧ ErrorIn u.name u.text f.error ∧
      (∀ n, f.error ≠ .syntaxError n) ∧ ∀ n m, f.error ≠ .read n m) ∨
    ∃ p, HasImport w dirs u p ∧ p ∉ ps ∧ p ∉ seen ∧
      ((w.read p = none ∧ f = ⟨ps.map .nested ++ [.readImported p], .unreadable p⟩) ∨
      ∃ t, w.read p = some t ∧
        ((w.parse p t = none ∧ f = ⟨ps.map .nested ++ [.parseImported p], .syntaxError p⟩) ∨
        ∃ m, FaultAt p t m ∧ f = ⟨ps.map .nested ++ [.parseImported p, .walk p], .read p m⟩)))

/-- The file has been read without error. -/
def SourceOk (w : World) (s : SourceFile) : Prop :=
  ∃ file ws, parseIdl w s.text s.name = .ok (file, s.items, ws)

theorem Located.weaken {w : World} {dirs : List Path} {s : SourceFile} {seen seen' : List Path}
    {f : Failure} (h : Located w dirs s seen' f) (hs : ∀ p ∈ seen, p ∈ seen') :
    Located w dirs s seen f := by
  obtain ⟨ps, u, h1, h2, h3, h4⟩ := h
  refine ⟨ps, u, h1, h2, fun p hp hm => h3 p hp (hs p hm), ?_⟩
  rcases h4 with h4 | ⟨p, g1, g2, g3, g4⟩
  · exact .inl h4
  · exact .inr ⟨p, g1, g2, fun hm => g3 (hs p hm), g4⟩

/-- The same failure, seen from a file with an import of the file. -/
theorem Located.into {w : World} {dirs : List Path} {s t : SourceFile} {seen : List Path} {p : Path}
    {f : Failure} (hi : HasImport w dirs s p) (ht : ImportedFile w p t) (hp : p ∉ seen)
    (h : Located w dirs t (p :: seen) f) : Located w dirs s seen (f.within (.nested p)) := by
  obtain ⟨ps, u, h1, h2, h3, h4⟩ := h
  refine ⟨p :: ps, u, .into hi ht h1, List.nodup_cons.mpr ⟨fun hm => h3 p hm (List.mem_cons_self ..),
    h2⟩, ?_, ?_⟩
  · intro q hq
    rcases List.mem_cons.mp hq with rfl | hq
    · exact hp
    · exact fun hm => h3 q hq (List.mem_cons_of_mem _ hm)
  · rcases h4 with ⟨g1, g2⟩ | ⟨q, g1, g2, g3, g4⟩
    · exact .inl ⟨by simp [Failure.within, g1], g2⟩
    · refine .inr ⟨q, g1, ?_, fun hm => g3 (List.mem_cons_of_mem _ hm), ?_⟩
      · intro hm
        rcases List.mem_cons.mp hm with rfl | hm
        · exact g3 (List.mem_cons_self ..)
        · exact g2 hm
      · rcases g4 with ⟨a, rfl⟩ | ⟨t, a, ⟨b, rfl⟩ | ⟨m, b, rfl⟩⟩
        · exact .inl ⟨a, rfl⟩
        · exact .inr ⟨t, a, .inl ⟨b, rfl⟩⟩
        · exact .inr ⟨t, a, .inr ⟨m, b, rfl⟩⟩

/-- The world with no files, in which only the text of one file can be pointed at. -/
def World.bare (w : World) : World := { w with read := fun _ => none }

omit [CharTables] [FloatTables] [CaseTables] in
theorem textOf_bare {w : World} {text name file content : String}
    (h : TextOf w.bare text name file content) : file = name ∧ content = text := by
  rcases h with h | h
  · exact h
  · cases h

theorem SourceOk.reported {w : World} (hw : w.parse = parseSource) {s : SourceFile}
    (h : SourceOk w s) : ItemsReported w.bare [] s.text s.name s.items ∧
      ImportsReported w.bare s.text s.name s.items := by
  obtain ⟨file, ws, h⟩ := h
  exact ⟨(parseIdl_places (w := w.bare) hw (.inl ⟨rfl, rfl⟩) h).1,
    parseIdl_imports (w := w.bare) hw (.inl ⟨rfl, rfl⟩) h⟩

theorem errorIn_of_reported {w : World} {text name : String} {e : CompileErr}
    (h : ErrReported w.bare text name e)
    (hne : (∃ sp c, e = .importFailed sp c) ∨ (∃ r sp, e = .register r sp) ∨
      ∃ t x sp l, e = .invalidDefaults t x sp l) : ErrorIn name text e := by
  rcases hne with ⟨sp, c, rfl⟩ | ⟨r, sp, rfl⟩ | ⟨t, x, sp, l, rfl⟩
  · obtain ⟨s, hs, content, ht, hsp⟩ := h
    obtain ⟨hf, rfl⟩ := textOf_bare ht
    exact ⟨s, hs, hf, hsp⟩
  · obtain ⟨s, hs, content, word, ht, hsp, hm⟩ := h
    obtain ⟨hf, rfl⟩ := textOf_bare ht
    exact ⟨s, word, hs, hf, hsp, hm⟩
  · obtain ⟨⟨s, hs, content, _, _, _, _, j, ht, _, _, _, _, _, _, hsp⟩, hl⟩ := h
    obtain ⟨hf, rfl⟩ := textOf_bare ht
    refine ⟨⟨s, _, hs, hf, hsp⟩, fun y hy => ?_⟩
    obtain ⟨content, _, _, _, _, j, ht, _, _, _, _, _, _, hsp'⟩ := hl y hy
    obtain ⟨hf, rfl⟩ := textOf_bare ht
    exact ⟨hf, _, hsp'⟩

/-- A failure of the file itself. -/
theorem located_here {w : World} {dirs : List Path} {s : SourceFile} {seen : List Path}
    {e : CompileErr} (h : ErrReported w.bare s.text s.name e)
    (hne : (∃ sp c, e = .importFailed sp c) ∨ (∃ r sp, e = .register r sp) ∨
      ∃ t x sp l, e = .invalidDefaults t x sp l) : Located w dirs s seen e.bare := by
  refine ⟨[], s, .here, .nil, by simp, .inl ⟨rfl, errorIn_of_reported h hne, ?_, ?_⟩⟩ <;>
  rcases hne with ⟨sp, c, rfl⟩ | ⟨r, sp, rfl⟩ | ⟨t, x, sp, l, rfl⟩ <;> simp [CompileErr.bare]

theorem declareType_located {w : World} (hw : w.parse = parseSource) {dirs : List Path} {fuel : Nat}
    {s : SourceFile} (hs : SourceOk w s) {t : Schema} {span : Option Span} {spans : List (String × Span)}
    (hm : .type t span spans ∈ s.items) {c c' : Ctx} {e : CompileErr}
    (h : declareType fuel t span spans c = (.error e, c')) (hne : e ≠ .timeout) {seen : List Path} :
    Located w dirs s seen e.bare := by
  obtain ⟨h1, h2, _⟩ := (hs.reported hw).1 _ _ _ hm
  unfold declareType at h
  split at h
  · injection h with h _; injection h with h; subst h
    exact located_here h1 (.inr (.inl ⟨_, _, rfl⟩))
  · split at h
    · injection h with h _; injection h with h; exact absurd h.symm hne
    · injection h with h _; cases h
    · rename_i hv
      injection h with h _; injection h with h; subst h
      exact located_here (defaultsErr_reported h2 hv) (.inr (.inr ⟨_, _, _, _, rfl⟩))

theorem readIdlE_error {w : World} (hw : w.parse = parseSource) {p : Path} {f : Failure}
    (h : readIdlE w p = .error f) :
    (w.read p = none ∧ f = ⟨[.readImported p], .unreadable p⟩) ∨
    ∃ t, w.read p = some t ∧
      ((w.parse p t = none ∧ f = ⟨[.parseImported p], .syntaxError p⟩) ∨
      ∃ m, FaultAt p t m ∧ f = ⟨[.parseImported p, .walk p], .read p m⟩) := by
  unfold readIdlE at h
  cases hr : w.read p with
  | none =>
    rw [hr] at h
    injection h with h
    exact .inl ⟨rfl, h.symm⟩
  | some t =>
    rw [hr] at h
    simp only at h
    refine .inr ⟨t, rfl, ?_⟩
    unfold parseIdlE at h
    cases hp : w.parse p t with
    | none =>
      rw [hp] at h
      injection h with h
      exact .inl ⟨rfl, h.symm⟩
    | some src =>
      rw [hp] at h
      simp only at h
      cases hf : readFile src.tokens src.ast with
      | error m =>
        rw [hf] at h
        injection h with h
        rw [hw] at hp
        exact .inr ⟨m, readFile_faultAt hp hf, h.symm⟩
      | ok r => rw [hf] at h; cases h

theorem readIdlE_ok {w : World} {p : Path} {file : IdlFile} {decls : List DeclItem}
    {ws : List Warning} (h : readIdlE w p = .ok (file, decls, ws)) :
    ∃ t, w.read p = some t ∧ parseIdl w t p = .ok (file, decls, ws) := by
  have h' := readIdlE_forget w p
  rw [h] at h'
  unfold readIdl at h'
  split at h'
  · cases h'
  · rename_i t ht
    exact ⟨t, ht, h'.symm⟩

theorem resolveSingleImportE_located {w : World} (hw : w.parse = parseSource) {dirs : List Path}
    {nested : List DeclItem → Path → Ctx → Explained Unit}
    (hn : ∀ (t : SourceFile), SourceOk w t → ∀ c f c', nested t.items t.dir c = (.error f, c') →
      f.error ≠ .timeout → Located w dirs t c.imported f)
    {s : SourceFile} (hs : SourceOk w s) {i : ImportEntry} (hm : .import_ i ∈ s.items) {c c' : Ctx}
    {f : Failure} (h : resolveSingleImportE w dirs nested i s.dir c = (.error f, c'))
    (hne : f.error ≠ .timeout) : Located w dirs s c.imported f := by
  have himp := (hs.reported hw).2 i hm
  unfold resolveSingleImportE at h
  split at h
  · injection h with h _; injection h with h; subst h
    exact located_here himp (.inl ⟨_, _, rfl⟩)
  · rename_i p hp
    have hp := resolveImport_ok.mp hp
    split at h
    · injection h with h _; cases h
    · rename_i hseen
      have hseen : p ∉ c.imported := by simpa using hseen
      simp only at h
      split at h
      · split at h
        · injection h with h _; injection h with h; subst h
          exact located_here himp (.inl ⟨_, _, rfl⟩)
        · split at h
          · injection h with h _; injection h with h; subst h
            exact located_here himp (.inl ⟨_, _, rfl⟩)
          · injection h with h _; cases h
      · split at h
        · injection h with h _; injection h with h; subst h
          exact located_here himp (.inl ⟨_, _, rfl⟩)
        · split at h
          · injection h with h _; injection h with h; subst h
            exact located_here himp (.inl ⟨_, _, rfl⟩)
          · injection h with h _; cases h
      · rename_i hk
        have hi : HasImport w dirs s p := ⟨i, hm, hk, hp⟩
        split at h
        · rename_i f' hr
          injection h with h _; injection h with h; subst h
          exact ⟨[], s, .here, .nil, by simp, .inr ⟨p, hi, by simp, hseen, readIdlE_error hw hr⟩⟩
        · rename_i file decls ws hr
          obtain ⟨t, ht, hpt⟩ := readIdlE_ok hr
          have hok : SourceOk w ⟨p, t, (w.parent p).getD ".", decls⟩ := ⟨file, ws, hpt⟩
          generalize hres : nested decls ((w.parent p).getD ".") _ = r at h
          obtain ⟨r, c2⟩ := r
          cases r with
          | ok _ => injection h with h _; cases h
          | error g =>
            injection h with h _; injection h with h; subst h
            have := hn ⟨p, t, (w.parent p).getD ".", decls⟩ hok _ g c2 hres hne
            exact Located.into hi ⟨rfl, ht, rfl, file, ws, hpt⟩ hseen this

theorem processItemsE_located {w : World} (hw : w.parse = parseSource) {dirs : List Path} {fuel : Nat}
    {nested : List DeclItem → Path → Ctx → Explained Unit}
    (hn : ∀ (t : SourceFile), SourceOk w t → ∀ c f c', nested t.items t.dir c = (.error f, c') →
      f.error ≠ .timeout → Located w dirs t c.imported f)
    (hmono : ∀ items dir c, ∀ p ∈ c.imported, p ∈ (nested items dir c).2.imported)
    {s : SourceFile} (hs : SourceOk w s) : ∀ (items : List DeclItem), (∀ x ∈ items, x ∈ s.items) →
    ∀ c f c', processItemsE w dirs fuel nested items s.dir c = (.error f, c') →
      f.error ≠ .timeout → Located w dirs s c.imported f
  | [], _, _, _, _, h, _ => by injection h with h _; cases h
  | .import_ i :: items, hm, c, f, c', h, hne => by
      simp only [processItemsE] at h
      have hmo := resolveSingleImportE_imported (w := w) (dirs := dirs) hmono i s.dir c
      cases hr : resolveSingleImportE w dirs nested i s.dir c with
      | mk r c1 =>
        rw [hr] at h hmo
        cases r with
        | error g =>
          injection h with h _; injection h with h; subst h
          exact resolveSingleImportE_located hw hn hs (hm _ (List.mem_cons_self ..)) hr hne
        | ok _ =>
          exact (processItemsE_located hw hn hmono hs items
            (fun x hx => hm x (List.mem_cons_of_mem _ hx)) c1 f c' h hne).weaken hmo
  | .type t span spans :: items, hm, c, f, c', h, hne => by
      simp only [processItemsE] at h
      have hmo := declareType_imported fuel t span spans c
      cases hr : declareType fuel t span spans c with
      | mk r c1 =>
        rw [hr] at h hmo
        cases r with
        | error g =>
          injection h with h _; injection h with h; subst h
          exact declareType_located hw hs (hm _ (List.mem_cons_self ..)) hr hne
        | ok _ =>
          have := processItemsE_located hw hn hmono hs items
            (fun x hx => hm x (List.mem_cons_of_mem _ hx)) c1 f c' h hne
          rw [show c1.imported = c.imported from hmo] at this
          exact this

theorem processDeclsE_located {w : World} (hw : w.parse = parseSource) {dirs : List Path}
    {fuel : Nat} : ∀ (depth : Nat) (s : SourceFile), SourceOk w s → ∀ c f c',
    processDeclsE w dirs fuel depth s.items s.dir c = (.error f, c') → f.error ≠ .timeout →
      Located w dirs s c.imported f
  | 0, _, _, _, _, _, h, hne => by
      injection h with h _; injection h with h; subst h; exact absurd rfl hne
  | depth + 1, s, hs, c, f, c', h, hne =>
      processItemsE_located hw (processDeclsE_located hw depth) (processDeclsE_imported depth) hs
        s.items (fun _ hx => hx) c f c' h hne

end

end Avdl
