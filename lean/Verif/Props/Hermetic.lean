import Verif.Spec.Hermetic
import Verif.Lemmas.Compile
import Verif.Props.Reimport
/-!
# C62: a compilation depends on the files it looks at only
-/

namespace Avdl.Props
open Spec

theorem searchDirs_congr {w w' : World} (hj : w.join = w'.join) {file : String} :
    ∀ {ds : List Path}, (∀ (k : Nat) (d : Path), ds[k]? = some d →
      (∀ (k' : Nat) (d' : Path), k' < k → ds[k']? = some d' → w.exists_ (w.join d' file) = false) →
      w.exists_ (w.join d file) = w'.exists_ (w.join d file)) →
    searchDirs w file ds = searchDirs w' file ds
  | [], _ => rfl
  | d :: ds, h => by
    have h0 := h 0 d rfl (fun k' d' hk => absurd hk (by omega))
    simp only [searchDirs]
    rw [← hj, ← h0]
    cases hx : w.exists_ (w.join d file) with
    | true => rfl
    | false =>
      simp only [Bool.false_eq_true, if_false]
      refine searchDirs_congr hj fun k e hk hlt => h (k + 1) e hk ?_
      intro k' d' hk' hd'
      cases k' with
      | zero =>
        simp only [List.getElem?_cons_zero, Option.some.injEq] at hd'
        subst hd'
        exact hx
      | succ k' => exact hlt k' d' (by omega) hd'

section
variable [CharTables] [FloatTables] [CaseTables]

theorem importReports_congr {w w' : World} (h : w.fileName = w'.fileName) (p : Path)
    (file : String) (ws : List Warning) : importReports w p file ws = importReports w' p file ws := by
  unfold importReports
  rw [h]

omit [CharTables] [FloatTables] [CaseTables] in
theorem resolveImport_congr {w w' : World} {dirs : List Path} {file : String} {dir : Path}
    (hs : searchDirs w file (dir :: dirs) = searchDirs w' file (dir :: dirs))
    (hc : ∀ q, searchDirs w file (dir :: dirs) = some q → w.canonicalize q = w'.canonicalize q) :
    resolveImport w dirs file dir = resolveImport w' dirs file dir := by
  unfold resolveImport
  rw [← hs]
  cases h : searchDirs w file (dir :: dirs) with
  | none => rfl
  | some q => simp only; rw [hc q h]

theorem readJson_congr {w w' : World} (h : w.parseJson = w'.parseJson) {p : Path}
    (hr : w.read p = w'.read p) : readJson w p = readJson w' p := by
  unfold readJson
  rw [h, hr]

theorem parseIdl_same {w w' : World} (h : w.parse = w'.parse) (text name : String) :
    parseIdl w text name = parseIdl w' text name := by
  unfold parseIdl
  rw [h]

theorem readIdl_congr {w w' : World} (h : w.parse = w'.parse) {p : Path}
    (hr : w.read p = w'.read p) : readIdl w p = readIdl w' p := by
  unfold readIdl
  rw [hr]
  cases w'.read p with
  | none => rfl
  | some t => exact parseIdl_same h t p


/-- Following one import. -/
theorem import_congr {w w' : World} (hw : SameSystem w w') {dirs : List Path} {i : ImportEntry}
    {items : List DeclItem} (hi : DeclItem.import_ i ∈ items) {dir : Path}
    (h : ∀ l, Looked w dirs dir items l → SameAnswer w w' l)
    {nested nested' : List DeclItem → Path → Ctx → Outcome Unit}
    (hn : ∀ decls d c, (∀ l, Looked w dirs d decls l → SameAnswer w w' l) →
      nested decls d c = nested' decls d c) (c : Ctx) :
    resolveSingleImport w dirs nested i dir c = resolveSingleImport w' dirs nested' i dir c := by
  have hs : searchDirs w i.path (dir :: dirs) = searchDirs w' i.path (dir :: dirs) :=
    searchDirs_congr hw.join fun k d hk hlt => h _ (.candidate hi hk hlt)
  have hr := resolveImport_congr (dirs := dirs) hs fun q hq => by
    have := searchDirs_spec w i.path (dir :: dirs)
    rw [hq] at this
    exact h _ (.found hi this)
  unfold resolveSingleImport
  rw [← hr]
  cases ho : resolveImport w dirs i.path dir with
  | error e => rfl
  | ok p =>
    have hp := resolveImport_ok.mp ho
    have hread : w.read p = w'.read p := h _ (.file hi hp)
    simp only
    rw [← readJson_congr hw.parseJson hread, ← readIdl_congr hw.parse hread]
    split
    · rfl
    · cases hk : i.kind with
      | protocol => rfl
      | schema => rfl
      | idl =>
        simp only
        cases hf : readIdl w p with
        | error e => rfl
        | ok r =>
          obtain ⟨file, decls, ws⟩ := r
          simp only
          rw [← hw.parent, ← importReports_congr hw.fileName]
          exact hn _ _ _ fun l hl => h l (.inside hi hp hk hf hl)

theorem processItems_congr {w w' : World} (hw : SameSystem w w') {dirs : List Path} {fuel : Nat}
    {all : List DeclItem} {dir : Path} (h : ∀ l, Looked w dirs dir all l → SameAnswer w w' l)
    {nested nested' : List DeclItem → Path → Ctx → Outcome Unit}
    (hn : ∀ decls d c, (∀ l, Looked w dirs d decls l → SameAnswer w w' l) →
      nested decls d c = nested' decls d c) :
    ∀ (items : List DeclItem), items ⊆ all → ∀ c,
      processItems w dirs fuel nested items dir c = processItems w' dirs fuel nested' items dir c
  | [], _, _ => rfl
  | .import_ i :: items, hs, c => by
    simp only [processItems]
    rw [← import_congr hw (hs (by simp)) h hn c]
    rcases resolveSingleImport w dirs nested i dir c with ⟨e | u, c'⟩
    · rfl
    · exact processItems_congr hw h hn items (fun x hx => hs (List.mem_cons_of_mem _ hx)) c'
  | .type s span spans :: items, hs, c => by
    simp only [processItems]
    rcases declareType fuel s span spans c with ⟨e | u, c'⟩
    · rfl
    · exact processItems_congr hw h hn items (fun x hx => hs (List.mem_cons_of_mem _ hx)) c'

theorem processDecls_congr {w w' : World} (hw : SameSystem w w') {dirs : List Path} {fuel : Nat} :
    ∀ (depth : Nat) (items : List DeclItem) (dir : Path) (c : Ctx),
      (∀ l, Looked w dirs dir items l → SameAnswer w w' l) →
      processDecls w dirs fuel depth items dir c = processDecls w' dirs fuel depth items dir c
  | 0, _, _, _, _ => rfl
  | depth + 1, items, _, c, h =>
    processItems_congr hw h
      (fun decls d c hd => processDecls_congr hw depth decls d c hd) items (fun _ hx => hx) c

theorem compile_congr {w w' : World} (hw : SameSystem w w') (b : Builder) (fuel : Nat)
    (text name : String) (dir : Path) (path : Option Path)
    (h : ∀ l, LookedForText w b.importDirs text name dir l → SameAnswer w w' l) :
    b.compile w fuel text name dir path = b.compile w' fuel text name dir path := by
  have : parseAndResolve w b.importDirs fuel text name dir path Ctx.new =
      parseAndResolve w' b.importDirs fuel text name dir path Ctx.new := by
    unfold parseAndResolve
    rw [← parseIdl_same hw.parse]
    cases hp : parseIdl w text name with
    | error e => rfl
    | ok r =>
      obtain ⟨file, decls, ws⟩ := r
      simp only
      rw [processDecls_congr hw _ _ _ _ fun l hl => h l ⟨file, decls, ws, hp, hl⟩]
  unfold Builder.compile
  simp only
  rw [this]

/-- **C62.** When two file systems answer the questions a compilation asks in the same way, the
compilation has the same result in both: output, warnings and errors. -/
theorem C62_compile {w w' : World} (hw : SameSystem w w') (b : Builder) (fuel : Nat) (path : Path)
    (h : ∀ l, LookedForFile w b.importDirs path l → SameAnswer w w' l) :
    b.compileFile w fuel path = b.compileFile w' fuel path := by
  have h1 : w.read path = w'.read path := h _ .content
  have h2 : w.canonicalize path = w'.canonicalize path := h _ .identity
  have h3 : w.canonicalize ((w.parent path).getD ".") = w'.canonicalize ((w.parent path).getD ".") :=
    h _ .directory
  unfold Builder.compileFile
  rw [← h1, ← h2, ← hw.parent]
  simp only
  rw [← h3]
  cases ht : w.read path with
  | none => rfl
  | some text => exact compile_congr hw b fuel text path _ _ fun l hl => h l (.inside ht hl)

/-- **C62, texts.** -/
theorem C62_text {w w' : World} (hw : SameSystem w w') (b : Builder) (fuel : Nat)
    (text name : String)
    (h : ∀ dir l, w.cwd = some dir → LookedForText w b.importDirs text name dir l →
      SameAnswer w w' l) :
    b.compileStr w fuel text name = b.compileStr w' fuel text name := by
  unfold Builder.compileStr
  rw [← hw.cwd]
  cases hc : w.cwd with
  | none => rfl
  | some dir => exact compile_congr hw b fuel text name dir none fun l hl => h dir l hc hl

/-- **C62, documents.** The same for what is written. -/
theorem C62_convert {w w' : World} (hw : SameSystem w w') (b : Builder) (fuel : Nat) (path : Path)
    (h : ∀ l, LookedForFile w b.importDirs path l → SameAnswer w w' l) :
    b.convert w fuel path = b.convert w' fuel path ∧
    (w.isDir path = false → w'.isDir path = false → b.extract w fuel path = b.extract w' fuel path) := by
  have hc := C62_compile hw b fuel path h
  refine ⟨?_, fun h1 h2 => ?_⟩
  · unfold Builder.convert
    rw [hc]
  · unfold Builder.extract
    rw [h1, h2, hc]
    rfl

/-- **C62, without imports.** A file that imports nothing is compiled in the same way whatever the
other files are. -/
theorem C62_alone {w w' : World} (hw : SameSystem w w') (b : Builder) (fuel : Nat) (path : Path)
    {text : String} {file : IdlFile} {decls : List DeclItem} {ws : List Warning}
    (ht : w.read path = some text) (hp : parseIdl w text path = .ok (file, decls, ws))
    (hno : ∀ i, DeclItem.import_ i ∉ decls) (h1 : w.read path = w'.read path)
    (h2 : w.canonicalize = w'.canonicalize) :
    b.compileFile w fuel path = b.compileFile w' fuel path := by
  refine C62_compile hw b fuel path fun l hl => ?_
  cases hl with
  | content => exact h1
  | identity => exact congrFun h2 _
  | directory => exact congrFun h2 _
  | inside ht' hl =>
    rw [ht] at ht'
    cases ht'
    obtain ⟨file', decls', ws', hp', hl⟩ := hl
    rw [hp] at hp'
    cases hp'
    cases hl with
    | candidate hi => exact absurd hi (hno _)
    | found hi => exact absurd hi (hno _)
    | file hi => exact absurd hi (hno _)
    | inside hi => exact absurd hi (hno _)

end

/-! ## Example -/

section
attribute [local instance] asciiTables exFloats exCases exJsonFloats

/-- A file that imports another one. -/
def exPair (p : Path) : Option String :=
  if p = "a" then some "protocol P{import idl \"b\";record R{S s;}}"
  else if p = "b" then some "protocol Q{record S{}}"
  else none

/-- The same with a third file. -/
def exTriple (p : Path) : Option String := if p = "z" then some "}" else exPair p

/-- The imports of the two files, and what is read. -/
def importsOf (r : Except CompileErr (IdlFile × List DeclItem × List Warning)) : List String :=
  match r with
  | .ok (_, decls, _) => decls.filterMap fun d => match d with
      | .import_ i => some i.path
      | _ => none
  | _ => ["?"]

theorem exPair_checks : (importsOf (readIdl (exReimportWorld exPair) "a") = ["b"] ∧
    importsOf (readIdl (exReimportWorld exPair) "b") = []) ∧
    (Builder.new.compileFile (exReimportWorld exPair) 9 "a").1.toBool = true := by decide +kernel

theorem import_of {r : Except CompileErr (IdlFile × List DeclItem × List Warning)} {l : List String}
    (h : importsOf r = l) {file : IdlFile} {decls : List DeclItem} {ws : List Warning}
    (hr : r = .ok (file, decls, ws)) {i : ImportEntry} (hi : DeclItem.import_ i ∈ decls) :
    i.path ∈ l := by
  subst hr
  subst h
  exact List.mem_filterMap.mpr ⟨_, hi, rfl⟩

/-- Only the two files are looked at. -/
theorem exPair_looked {l : Look} (h : LookedForFile (exReimportWorld exPair) [] "a" l) :
    l ≠ .content "z" ∧ l ≠ .existence "z" := by
  obtain ⟨⟨hA, hB⟩, -⟩ := exPair_checks
  have key : ∀ {dir items l}, Looked (exReimportWorld exPair) [] dir items l →
      (∀ i, DeclItem.import_ i ∈ items → i.path = "b") → l ≠ .content "z" ∧ l ≠ .existence "z" := by
    intro dir items l hl
    induction hl with
    | @candidate dir items i d k hi hk hlt =>
      intro hall
      have := hall i hi
      refine ⟨fun h => (by cases h), fun h => ?_⟩
      have hj : (exReimportWorld exPair).join d i.path = i.path := rfl
      rw [hj, this] at h
      exact absurd h (by decide)
    | found => exact fun _ => ⟨fun h => (by cases h), fun h => (by cases h)⟩
    | @file dir items i p hi hp =>
      intro hall
      obtain ⟨q, ⟨_, d, _, rfl, _, _⟩, hq⟩ := hp
      have hj : (exReimportWorld exPair).canonicalize ((exReimportWorld exPair).join d i.path) =
        some i.path := rfl
      rw [hj, hall i hi] at hq
      cases hq
      exact ⟨by decide, by decide⟩
    | @inside dir items i p f decls ws l hi hp hk hf hl ih =>
      intro hall
      obtain ⟨q, ⟨_, d, _, rfl, _, _⟩, hq⟩ := hp
      have hj : (exReimportWorld exPair).canonicalize ((exReimportWorld exPair).join d i.path) =
        some i.path := rfl
      rw [hj, hall i hi] at hq
      cases hq
      exact ih fun i' hi' => absurd (import_of hB hf hi') (by simp)
  cases h with
  | content => exact ⟨by decide, by decide⟩
  | identity => exact ⟨fun h => (by cases h), fun h => (by cases h)⟩
  | directory => exact ⟨fun h => (by cases h), fun h => (by cases h)⟩
  | inside ht hl =>
    obtain ⟨f, decls, ws, hp, hl⟩ := hl
    refine key hl fun i hi => ?_
    have hr : readIdl (exReimportWorld exPair) "a" = .ok (f, decls, ws) := by
      unfold readIdl
      rw [ht]
      exact hp
    simpa using import_of hA hr hi

attribute [local irreducible] Builder.compileFile

/-- Non-vacuity: the project is compiled, and the third file does not matter. -/
example : (Builder.new.compileFile (exReimportWorld exPair) 9 "a").1.toBool = true ∧
    Builder.new.compileFile (exReimportWorld exPair) 9 "a" =
      Builder.new.compileFile (exReimportWorld exTriple) 9 "a" := by
  refine ⟨exPair_checks.2, C62_compile (w := exReimportWorld exPair)
    (w' := exReimportWorld exTriple) ⟨rfl, rfl, rfl, rfl, rfl, rfl⟩ _ _ _ fun l hl => ?_⟩
  have hne := exPair_looked hl
  cases l with
  | existence p =>
    have hp : p ≠ "z" := fun h => hne.2 (by rw [h])
    show (exPair p).isSome = (exTriple p).isSome
    rw [exTriple, if_neg hp]
  | identity p => rfl
  | content p =>
    have hp : p ≠ "z" := fun h => hne.1 (by rw [h])
    show exPair p = exTriple p
    rw [exTriple, if_neg hp]

end

end Avdl.Props
