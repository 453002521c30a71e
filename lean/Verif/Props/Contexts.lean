import Verif.Lemmas.Contexts
import Verif.Props.Problem
/-!
# C64: the contexts of an error
-/

namespace Avdl.Props
open Spec

section
variable [CharTables] [FloatTables] [CaseTables]

/-- **C64.**  The contexts of an error name the IDL files on the way from the compiled file to the place
of the error: each is imported by an import statement of the one before, none is named twice, and
the error is in the last of them (or in the compiled file itself, if there are none), where its positions
are. -/
theorem C64_contexts {w : World} (hw : w.parse = parseSource) (b : Builder) {fuel : Nat}
    {text name : String} {dir : Path} {path : Option Path} {f : Failure}
    (h : (b.compileE w fuel text name dir path).1 = .error f) (hne : f.error ≠ .timeout) :
    ErrorExplained w b.importDirs text name dir path.toList f.contexts f.error := by
  unfold Builder.compileE at h
  simp only at h
  cases hp : parseAndResolveE w b.importDirs fuel text name dir path Ctx.new with
  | mk r c =>
    rw [hp] at h
    cases r with
    | ok file =>
      simp only at h
      cases hv : validateAllReferences file c.registry with
      | ok _ => rw [hv] at h; cases h
      | error e =>
        rw [hv] at h
        injection h with h; subst h
        unfold validateAllReferences at hv
        split at hv
        · cases hv
        · injection hv with hv; subst hv
          exact .undefined
    | error g =>
      injection h with h; subst h
      unfold parseAndResolveE at hp
      cases h1 : parseIdlE w text name with
      | error g' =>
        rw [h1] at hp
        injection hp with hp _; injection hp with hp; subst hp
        have h2 := parseIdlE_forget w text name
        rw [h1] at h2
        unfold parseIdlE at h1
        cases hs : w.parse name text with
        | none =>
          rw [hs] at h1
          injection h1 with h1; subst h1
          exact .syntaxError hs
        | some src =>
          rw [hs] at h1
          simp only at h1
          cases hf : readFile src.tokens src.ast with
          | ok _ => rw [hf] at h1; cases h1
          | error m =>
            rw [hf] at h1
            injection h1 with h1; subst h1
            rw [hw] at hs
            exact .rule h2.symm (readFile_faultAt hs hf)
      | ok r =>
        obtain ⟨file, decls, ws⟩ := r
        have h2 := parseIdlE_forget w text name
        rw [h1] at hp h2
        simp only [addContext] at hp
        generalize hd : processDeclsE w b.importDirs fuel fuel decls dir _ = r at hp
        obtain ⟨r, c2⟩ := r
        cases r with
        | ok _ => injection hp with hp _; cases hp
        | error g' =>
          injection hp with hp _; injection hp with hp; subst hp
          have hl := processDeclsE_located hw (s := ⟨name, text, dir, decls⟩) fuel
            ⟨file, ws, h2.symm⟩ _ _ _ hd hne
          obtain ⟨ps, u, g1, g2, g3, g4⟩ := hl
          have hsn : path.toList.Nodup := by cases path <;> simp
          have hnd : (path.toList ++ ps).Nodup := by
            refine List.nodup_append.mpr ⟨hsn, g2, ?_⟩
            rintro a ha _ hb rfl
            exact g3 a hb (by simp [Ctx.new] at ha ⊢; exact ha)
          rcases g4 with ⟨k1, k2, k3, k4⟩ | ⟨p, k1, k2, k3, k4⟩
          · rw [k1]
            exact .inside h2.symm g1 hnd k2 k3 k4
          · have hnd' : (path.toList ++ ps ++ [p]).Nodup := by
              refine List.nodup_append.mpr ⟨hnd, by simp, ?_⟩
              rintro a ha q hq rfl
              rw [List.mem_singleton] at hq; subst hq
              rcases List.mem_append.mp ha with ha | ha
              · exact k3 (by simp [Ctx.new] at ha ⊢; exact ha)
              · exact k2 ha
            rcases k4 with ⟨a, rfl⟩ | ⟨t, a, ⟨b, rfl⟩ | ⟨m, b, rfl⟩⟩
            · exact .unreadable h2.symm g1 hnd' k1 a
            · exact .importSyntax h2.symm g1 hnd' k1 a b
            · exact .importRule h2.symm g1 hnd' k1 a b

/-- **C64, nothing else changes.**  Contexts apart, a compilation gives the same result. -/
theorem C64_same_error (b : Builder) (w : World) (fuel : Nat) (text name : String) (dir : Path)
    (path : Option Path) :
    (match (b.compileE w fuel text name dir path).1 with
      | .error f => Except.error f.error
      | .ok out => .ok out) = (b.compile w fuel text name dir path).1 ∧
    (b.compileE w fuel text name dir path).2 = (b.compile w fuel text name dir path).2 := by
  rw [← compileE_forget]
  refine ⟨?_, rfl⟩
  simp only [Prod.map]
  cases (b.compileE w fuel text name dir path).1 <;> rfl

/-- **C64, files.**  A file that cannot be read is named, and so is a missing working directory. -/
theorem C64_unreadable (b : Builder) (w : World) (fuel : Nat) (path : Path) (h : w.read path = none) :
    (b.compileFileE w fuel path).1 = .error ⟨[.file path], .unreadable path⟩ := by
  unfold Builder.compileFileE
  rw [h]; rfl

theorem C64_no_directory (b : Builder) (w : World) (fuel : Nat) (text name : String)
    (h : w.cwd = none) :
    (b.compileStrE w fuel text name).1 = .error ⟨[.currentDir], .noCwd⟩ := by
  unfold Builder.compileStrE
  rw [h]; rfl

end

/-! ## The texts -/

/-- The characters of the text of a context. -/
def contextChars : Context → List Char
  | .file p => ['r', 'e', 'a', 'd', ' '] ++ p.toList
  | .currentDir => ['d', 'e', 't', 'e', 'r', 'm', 'i', 'n', 'e', ' ', 'c', 'u', 'r', 'r', 'e',
      'n', 't', ' ', 'd', 'i', 'r', 'e', 'c', 't', 'o', 'r', 'y']
  | .source => ['p', 'a', 'r', 's', 'e', ' ', 'I', 'D', 'L', ' ', 's', 'o', 'u', 'r', 'c', 'e']
  | .walk p => ['p', 'a', 'r', 's', 'e', ' ', '`'] ++ p.toList ++ ['`']
  | .readImported p => ['r', 'e', 'a', 'd', ' ', 'i', 'm', 'p', 'o', 'r', 't', 'e', 'd', ' ', 'I',
      'D', 'L', ' '] ++ p.toList
  | .parseImported p => ['p', 'a', 'r', 's', 'e', ' ', 'i', 'm', 'p', 'o', 'r', 't', 'e', 'd',
      ' ', 'I', 'D', 'L', ' '] ++ p.toList
  | .nested p => ['r', 'e', 's', 'o', 'l', 'v', 'e', ' ', 'n', 'e', 's', 't', 'e', 'd', ' ', 'i',
      'm', 'p', 'o', 'r', 't', 's', ' ', 'f', 'r', 'o', 'm', ' ', '`'] ++ p.toList ++ ['`']

theorem toList_prefix {s p : String} {l : List Char} (h : s.toList = l) :
    (s ++ p).toList = l ++ p.toList := by
  rw [String.toList_append, h]

theorem contextChars_eq : ∀ x : Context, x.text.toList = contextChars x
  | .file _ => toList_prefix (s := "read ") (by decide +kernel)
  | .currentDir => by decide +kernel
  | .source => by decide +kernel
  | .walk p => (toList_prefix (s := "parse `" ++ p)
      (toList_prefix (by decide +kernel))).trans (congrArg _ (by decide +kernel))
  | .readImported _ => toList_prefix (s := "read imported IDL ") (by decide +kernel)
  | .parseImported _ => toList_prefix (s := "parse imported IDL ") (by decide +kernel)
  | .nested p => (toList_prefix (s := "resolve nested imports from `" ++ p)
      (toList_prefix (by decide +kernel))).trans (congrArg _ (by decide +kernel))

/-- The text of a context tells which context it is, with one exception: that a file could not be
read reads like that an imported one could not if the name of the file begins with
`imported IDL`. -/
theorem C64_text_tells (x y : Context) (h : x.text = y.text) :
    x = y ∨ ∃ p, (x = .file ("imported IDL " ++ p) ∧ y = .readImported p) ∨
      (x = .readImported p ∧ y = .file ("imported IDL " ++ p)) := by
  have h' : contextChars x = contextChars y := by
    rw [← contextChars_eq, ← contextChars_eq, h]
  have hc : ∀ p : String, ("imported IDL " ++ p).toList =
      ['i', 'm', 'p', 'o', 'r', 't', 'e', 'd', ' ', 'I', 'D', 'L', ' '] ++ p.toList := by
    intro p; rw [String.toList_append]; refine congrArg (· ++ _) ?_; decide +kernel
  cases x <;> cases y <;>
    simp only [contextChars, List.cons_append, List.nil_append, List.cons.injEq, true_and,
      Char.reduceEq, false_and, reduceCtorEq] at h'
  case file.readImported =>
    exact .inr ⟨_, .inl ⟨congrArg _ (String.toList_inj.1 (h'.trans (hc _).symm)), rfl⟩⟩
  case readImported.file =>
    exact .inr ⟨_, .inr ⟨rfl, congrArg _ (String.toList_inj.1 (h'.symm.trans (hc _).symm))⟩⟩
  all_goals
    first
      | exact .inl rfl
      | exact .inl (congrArg _ (String.toList_inj.1 h'))
      | exact .inl (congrArg _ (String.toList_inj.1 (List.append_cancel_right h')))

/-- The text of a context about a file gives the file. -/
theorem C64_text_names (file : String) :
    ∀ x ∈ [Context.file file, .walk file, .readImported file, .parseImported file, .nested file],
      GivesFile x.text file := by
  intro x hx
  simp only [List.mem_cons, List.not_mem_nil, or_false] at hx
  rcases hx with rfl | rfl | rfl | rfl | rfl
  · exact ⟨"read", .inl rfl⟩
  · exact ⟨"parse", .inr rfl⟩
  · exact ⟨"read imported IDL", .inl rfl⟩
  · exact ⟨"parse imported IDL", .inl rfl⟩
  · exact ⟨"resolve nested imports from", .inr rfl⟩

/-! ## Examples -/

section
attribute [local instance] asciiTables exFloats exCases exJsonFloats

/-- The file `b` imports `c`, which declares a name twice; `e` imports `d`, which is not IDL; `f`
violates a rule. -/
def exContextFiles (p : Path) : Option String :=
  match p with
  | "b" => some "protocol B { import idl \"c\"; }"
  | "c" => some "protocol C { enum E { A } enum E { B } }"
  | "e" => some "protocol E { import idl \"d\"; }"
  | "d" => some "protocol D { oops }"
  | "f" => some "protocol F { enum E { A, A } }"
  | _ => none

/-- The contexts of the error of the compilation of a text. -/
def exContexts (text : String) : Option (List Context) :=
  match (Builder.new.compileE (exReimportWorld exContextFiles) 9 text "a" "" none).1 with
  | .error f => some f.contexts
  | .ok _ => none

/-- A name declared twice in a file imported by an imported file; an import of a file that is not IDL in
an imported file; an imported file that violates a rule; the same in the compiled file. -/
example : exContexts "protocol P { import idl \"b\"; }" = some [.nested "b", .nested "c"] := by
  decide +kernel
example : exContexts "protocol P { import idl \"e\"; }" =
    some [.nested "e", .parseImported "d"] := by decide +kernel
example : exContexts "protocol P { import idl \"f\"; }" =
    some [.parseImported "f", .walk "f"] := by decide +kernel
example : exContexts "protocol P { enum E { A, A } }" = some [.source, .walk "a"] := by
  decide +kernel

/-- The error is the same as without contexts. -/
example : (match (Builder.new.compileE (exReimportWorld exContextFiles) 9
      "protocol P { import idl \"b\"; }" "a" "" none).1 with
    | .error ⟨_, .register (.duplicate "E") sp⟩ => decide (sp = some ⟨26, 4, "c"⟩)
    | _ => false) = true := by decide +kernel
example : (Context.nested "inner.avdl").text = "resolve nested imports from `inner.avdl`" := by
  decide
example : (Context.file "imported IDL a").text = (Context.readImported "a").text ∧
    (Context.nested "a").text ≠ (Context.parseImported "a").text := by decide

end

end Avdl.Props
