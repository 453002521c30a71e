import Verif.Props.Compile
import Verif.Spec.Source
/-!
# C25, C27: the two front ends, and their warnings
-/

namespace Avdl.Props
open Spec

section
variable [CharTables] [FloatTables] [CaseTables]

/-! ## C25 -/

omit [FloatTables] [CaseTables] in
theorem runEvents_prefix_fails {w : World} {fuel : Nat} {es l : List Event} {ev : Event}
    {k0 k k' : Core} {e : CompileErr} (hpre : es ++ [ev] <+: l)
    (h1 : runEvents w fuel es k0 = .ok k) (h2 : ev.run w fuel k = .error e) :
    runEvents w fuel l k0 ≠ .ok k' := by
  obtain ⟨rest, rfl⟩ := hpre
  rw [List.append_assoc, runEvents_append w fuel es _ h1]
  simp [runEvents, h2]

/-- **C25, what is raised.**  The warnings a compilation raises are determined by the files: those
of the file itself, then those of each imported file, up to the point of a failure. -/
theorem C25_raised_determined {w : World} {dirs : List Path} {fuel : Nat} {text name : String}
    {dir : Path} {path : Option Path} {ws ws' : List Report}
    (h : Raises w dirs fuel text name dir path ws)
    (h' : Raises w dirs fuel text name dir path ws') : ws = ws' := by
  cases h with
  | unread hp =>
    cases h' with
    | unread _ => rfl
    | all hp' | stuck hp' | failed hp' => rw [hp] at hp'; cases hp'
  | all hp ht hr =>
    cases h' with
    | unread hp' => rw [hp] at hp'; cases hp'
    | all hp' ht' hr' =>
      rw [hp] at hp'; injection hp' with hp'; injection hp' with _ hp'; injection hp' with hd hw
      subst hd hw
      rcases ht.det ht' with ⟨h, _⟩ | ⟨h, _⟩ | ⟨h, _⟩
      · cases h
      · cases h
      · rw [h]
    | stuck hp' ht' hr' =>
      rw [hp] at hp'; injection hp' with hp'; injection hp' with _ hp'; injection hp' with hd hw
      subst hd hw
      rcases ht.det ht' with ⟨h, _⟩ | ⟨h, _⟩ | ⟨_, h⟩ <;> cases h
    | failed hp' ht' hr' hf' =>
      rw [hp] at hp'; injection hp' with hp'; injection hp' with _ hp'; injection hp' with hd hw
      subst hd hw
      rcases ht.det ht' with ⟨h, _⟩ | ⟨_, h⟩ | ⟨_, h⟩
      · cases h
      · exact absurd hr (runEvents_prefix_fails h hr' hf')
      · cases h
  | stuck hp ht hr =>
    cases h' with
    | unread hp' => rw [hp] at hp'; cases hp'
    | all hp' ht' hr' =>
      rw [hp] at hp'; injection hp' with hp'; injection hp' with _ hp'; injection hp' with hd hw
      subst hd hw
      rcases ht.det ht' with ⟨h, _⟩ | ⟨h, _⟩ | ⟨_, h⟩ <;> cases h
    | stuck hp' ht' hr' =>
      rw [hp] at hp'; injection hp' with hp'; injection hp' with _ hp'; injection hp' with hd hw
      subst hd hw
      rcases ht.det ht' with ⟨h, _⟩ | ⟨h, _⟩ | ⟨h, _⟩
      · cases h
      · cases h
      · rw [h]
    | failed hp' ht' hr' hf' =>
      rw [hp] at hp'; injection hp' with hp'; injection hp' with _ hp'; injection hp' with hd hw
      subst hd hw
      rcases ht.det ht' with ⟨h, _⟩ | ⟨_, h⟩ | ⟨_, h⟩
      · cases h
      · exact absurd hr (runEvents_prefix_fails h hr' hf')
      · cases h
  | @failed file decls ws0 es ev k e hp ht hr hf =>
    cases h' with
    | unread hp' => rw [hp] at hp'; cases hp'
    | all hp' ht' hr' =>
      rw [hp] at hp'; injection hp' with hp'; injection hp' with _ hp'; injection hp' with hd hw
      subst hd hw
      rcases ht.det ht' with ⟨_, h⟩ | ⟨h, _⟩ | ⟨_, h⟩
      · exact absurd hr' (runEvents_prefix_fails h hr hf)
      · cases h
      · cases h
    | stuck hp' ht' hr' =>
      rw [hp] at hp'; injection hp' with hp'; injection hp' with _ hp'; injection hp' with hd hw
      subst hd hw
      rcases ht.det ht' with ⟨_, h⟩ | ⟨h, _⟩ | ⟨_, h⟩
      · exact absurd hr' (runEvents_prefix_fails h hr hf)
      · cases h
      · cases h
    | @failed file' decls' ws0' es' ev' k' e' hp' ht' hr' hf' =>
      rw [hp] at hp'; injection hp' with hp'; injection hp' with _ hp'; injection hp' with hd hw
      subst hd hw
      have key : ∀ {a b : List Event} {x y : Event} {ka kb : Core} {ex ey : CompileErr},
          a ++ [x] <+: b ++ [y] →
          runEvents w fuel a ⟨[], [], []⟩ = .ok ka → x.run w fuel ka = .error ex →
          runEvents w fuel b ⟨[], [], []⟩ = .ok kb → y.run w fuel kb = .error ey → a = b := by
        intro a b x y ka kb ex ey hpre h1 h2 h3 h4
        rcases List.prefix_concat_iff.mp hpre with h | h
        · exact (List.append_inj_left' h rfl)
        · exact absurd h3 (runEvents_prefix_fails h h1 h2)
      rcases ht.det ht' with ⟨_, h⟩ | ⟨_, h⟩ | ⟨h, _⟩
      · rw [key h hr hf hr' hf']
      · rw [key h hr' hf' hr hf]
      · rw [List.append_inj_left' h rfl]

/-- The warnings are delivered: in the result on success, with nothing left in the builder; through
the drain call on failure, the first time it is made. -/
def Delivered {α : Type} (warnings : α → List Report) (r : Except CompileErr α × Builder)
    (ws : List Report) : Prop :=
  match r with
  | (.ok out, b') => warnings out = ws ∧ b'.drain.1 = []
  | (.error _, b') => b'.drain.1 = ws ∧ b'.drain.2.drain.1 = []

/-- **C25, compilation.**  Whatever the builder has been used for before, a compilation delivers
exactly the warnings it raises, and keeps the search directories. -/
theorem C25_compile_delivers (b : Builder) (w : World) (fuel : Nat) (text name : String)
    (dir : Path) (path : Option Path)
    (hne : (b.compile w fuel text name dir path).1 ≠ .error .timeout) :
    (∃ ws, Raises w b.importDirs fuel text name dir path ws ∧
      Delivered CompileOutput.warnings (b.compile w fuel text name dir path) ws) ∧
    (b.compile w fuel text name dir path).2.importDirs = b.importDirs := by
  unfold Builder.compile at hne ⊢
  simp only at hne ⊢
  cases hp : parseAndResolve w b.importDirs fuel text name dir path Ctx.new with
  | mk r c =>
    rw [hp] at hne
    cases r with
    | error e =>
      simp only at hne ⊢
      refine ⟨⟨c.warnings, parseAndResolve_error hp ?_, rfl, rfl⟩, trivial⟩
      rintro rfl; exact hne rfl
    | ok file =>
      obtain ⟨file', decls, ws, es, seen, k, h1, h2, h3, _, _, h6, _⟩ := parseAndResolve_ok hp
      simp only
      cases hv : validateAllReferences file c.registry with
      | error e => exact ⟨⟨c.warnings, by rw [h6]; exact .all h1 h2 h3, rfl, rfl⟩, rfl⟩
      | ok u => exact ⟨⟨c.warnings, by rw [h6]; exact .all h1 h2 h3, rfl, rfl⟩, rfl⟩

omit [CharTables] [FloatTables] [CaseTables] in
theorem delivered_convert {fuel : Nat} {r : Except CompileErr CompileOutput × Builder}
    {ws : List Report} (h : Delivered CompileOutput.warnings r ws)
    (hne : (convertImpl fuel r).1 ≠ .error .timeout) :
    Delivered IdlOutput.warnings (convertImpl fuel r) ws := by
  obtain ⟨r, b⟩ := r
  cases r with
  | error e => exact h
  | ok out =>
    obtain ⟨h1, h2⟩ := h
    unfold convertImpl at hne ⊢
    cases hf : out.file with
    | named ss => simp only [hf]; exact ⟨h1, rfl⟩
    | protocol p =>
      simp only [hf] at hne ⊢
      cases ho : outputJson fuel out with
      | none => rw [ho] at hne; exact absurd rfl hne
      | some j => exact ⟨h1, h2⟩
    | schema s =>
      simp only [hf] at hne ⊢
      cases ho : outputJson fuel out with
      | none => rw [ho] at hne; exact absurd rfl hne
      | some j => exact ⟨h1, h2⟩

omit [CharTables] [FloatTables] [CaseTables] in
theorem delivered_extract {fuel : Nat} {r : Except CompileErr CompileOutput × Builder}
    {ws : List Report} (h : Delivered CompileOutput.warnings r ws)
    (hne : (extractFrom fuel r).1 ≠ .error .timeout) :
    Delivered SchemataOutput.warnings (extractFrom fuel r) ws := by
  obtain ⟨r, b⟩ := r
  cases r with
  | error e => exact h
  | ok out =>
    obtain ⟨h1, h2⟩ := h
    unfold extractFrom extractImpl at hne ⊢
    simp only at hne ⊢
    cases ho : extractSchemas fuel out.registry.schemas with
    | none => rw [ho] at hne; exact absurd rfl hne
    | some j => exact ⟨h1, h2⟩

/-- **C25, partial.**  Every warning raised by a compilation is delivered exactly once, in the
result on success and through the drain call on failure, and nothing of an earlier compilation is
delivered — for a builder `b` in any state, compiling a text, and a file that can be read.

Missing: files that cannot be read (`C25_fails_stale`), a failing file in a directory
(`C25_fails_directory`), and the warnings of the very file whose reading fails
(`C25_fails_reader_error`); there the property does not hold. -/
theorem C25_delivered_partial (b : Builder) (w : World) (fuel : Nat) :
    (∀ text name dir, w.cwd = some dir →
      ((b.convertStr w fuel text name).1 ≠ .error .timeout →
        ∃ ws, Raises w b.importDirs fuel text name dir none ws ∧
          Delivered IdlOutput.warnings (b.convertStr w fuel text name) ws) ∧
      ((b.extractStr w fuel text name).1 ≠ .error .timeout →
        ∃ ws, Raises w b.importDirs fuel text name dir none ws ∧
          Delivered SchemataOutput.warnings (b.extractStr w fuel text name) ws)) ∧
    (∀ path text, w.read path = some text →
      ((b.convert w fuel path).1 ≠ .error .timeout →
        ∃ ws, Raises w b.importDirs fuel text path (fileDir w path) (w.canonicalize path) ws ∧
          Delivered IdlOutput.warnings (b.convert w fuel path) ws) ∧
      (w.isDir path = false → (b.extract w fuel path).1 ≠ .error .timeout →
        ∃ ws, Raises w b.importDirs fuel text path (fileDir w path) (w.canonicalize path) ws ∧
          Delivered SchemataOutput.warnings (b.extract w fuel path) ws)) := by
  have hc : ∀ r : Except CompileErr CompileOutput × Builder,
      (convertImpl fuel r).1 ≠ .error .timeout → r.1 ≠ .error .timeout := by
    intro r h hr
    obtain ⟨r, b⟩ := r
    simp only at hr; subst hr
    exact h rfl
  have he : ∀ r : Except CompileErr CompileOutput × Builder,
      (extractFrom fuel r).1 ≠ .error .timeout → r.1 ≠ .error .timeout := by
    intro r h hr
    obtain ⟨r, b⟩ := r
    simp only at hr; subst hr
    exact h rfl
  refine ⟨fun text name dir hd => ⟨fun hne => ?_, fun hne => ?_⟩,
    fun path text hr => ⟨fun hne => ?_, fun hdir hne => ?_⟩⟩
  · have hs : b.compileStr w fuel text name = b.compile w fuel text name dir none := by
      unfold Builder.compileStr; rw [hd]
    unfold Builder.convertStr at hne ⊢
    rw [hs] at hne ⊢
    obtain ⟨⟨ws, h1, h2⟩, _⟩ := C25_compile_delivers b w fuel text name dir none (hc _ hne)
    exact ⟨ws, h1, delivered_convert h2 hne⟩
  · have hs : b.compileStr w fuel text name = b.compile w fuel text name dir none := by
      unfold Builder.compileStr; rw [hd]
    unfold Builder.extractStr at hne ⊢
    rw [hs] at hne ⊢
    obtain ⟨⟨ws, h1, h2⟩, _⟩ := C25_compile_delivers b w fuel text name dir none (he _ hne)
    exact ⟨ws, h1, delivered_extract h2 hne⟩
  · have hs : b.compileFile w fuel path = b.compile w fuel text path (fileDir w path)
        (w.canonicalize path) := by
      unfold Builder.compileFile; rw [hr]; rfl
    unfold Builder.convert at hne ⊢
    rw [hs] at hne ⊢
    obtain ⟨⟨ws, h1, h2⟩, _⟩ := C25_compile_delivers b w fuel text path _ _ (hc _ hne)
    exact ⟨ws, h1, delivered_convert h2 hne⟩
  · have hs : b.compileFile w fuel path = b.compile w fuel text path (fileDir w path)
        (w.canonicalize path) := by
      unfold Builder.compileFile; rw [hr]; rfl
    unfold Builder.extract at hne ⊢
    simp only [hdir, Bool.false_eq_true, if_false] at hne ⊢
    rw [hs] at hne ⊢
    obtain ⟨⟨ws, h1, h2⟩, _⟩ := C25_compile_delivers b w fuel text path _ _ (he _ hne)
    exact ⟨ws, h1, delivered_extract h2 hne⟩

/-- **C25, results.**  The result of a call never depends on what the builder was used for before:
two builders with the same search directories give the same results. -/
theorem C25_results_independent (b : Builder) (old : List Report) (w : World) (fuel : Nat) :
    (∀ text name, ({ b with accumulated := old }.convertStr w fuel text name).1 =
      (b.convertStr w fuel text name).1) ∧
    (∀ path, ({ b with accumulated := old }.convert w fuel path).1 = (b.convert w fuel path).1) ∧
    (∀ text name, ({ b with accumulated := old }.extractStr w fuel text name).1 =
      (b.extractStr w fuel text name).1) ∧
    (∀ path, ({ b with accumulated := old }.extract w fuel path).1 = (b.extract w fuel path).1) := by
  have hc : ∀ text name dir path,
      { b with accumulated := old }.compile w fuel text name dir path =
        b.compile w fuel text name dir path := fun _ _ _ _ => rfl
  have hv : ∀ r r' : Except CompileErr CompileOutput × Builder, r.1 = r'.1 →
      (convertImpl fuel r).1 = (convertImpl fuel r').1 := by
    rintro ⟨r, b⟩ ⟨r', b'⟩ h
    simp only at h; subst h
    cases r with
    | error e => rfl
    | ok out =>
      unfold convertImpl
      simp only
      cases out.file with
      | named ss => rfl
      | protocol p => cases outputJson fuel out <;> rfl
      | schema s => cases outputJson fuel out <;> rfl
  have he : ∀ r r' : Except CompileErr CompileOutput × Builder, r.1 = r'.1 →
      (extractFrom fuel r).1 = (extractFrom fuel r').1 := by
    rintro ⟨r, b⟩ ⟨r', b'⟩ h
    simp only at h; subst h
    cases r <;> rfl
  have hf : ∀ path, ({ b with accumulated := old }.compileFile w fuel path).1 =
      (b.compileFile w fuel path).1 := by
    intro path
    unfold Builder.compileFile
    cases w.read path <;> rfl
  have hs : ∀ text name, ({ b with accumulated := old }.compileStr w fuel text name).1 =
      (b.compileStr w fuel text name).1 := by
    intro text name
    unfold Builder.compileStr
    cases w.cwd <;> rfl
  refine ⟨fun t n => hv _ _ (hs t n), fun p => hv _ _ (hf p), fun t n => he _ _ (hs t n), ?_⟩
  intro p
  unfold Builder.extract
  split
  · cases hl : w.avdlFiles p with
    | nil => rfl
    | cons q qs =>
      simp only [Builder.extractFiles]
      unfold Builder.compileFile
      cases hr : w.read q with
      | none => rfl
      | some t =>
        simp only [hc]
  · exact he _ _ (hf p)

theorem compileFile_result (b : Builder) (old : List Report) (w : World) (fuel : Nat) (path : Path) :
    ({ b with accumulated := old }.compileFile w fuel path).1 = (b.compileFile w fuel path).1 := by
  unfold Builder.compileFile
  cases w.read path <;> rfl

theorem compile_dirs (b : Builder) (w : World) (fuel : Nat) (text name : String) (dir : Path)
    (path : Option Path) : (b.compile w fuel text name dir path).2.importDirs = b.importDirs := by
  unfold Builder.compile
  simp only
  split
  · rfl
  · split <;> rfl

theorem compileFile_dirs (b : Builder) (w : World) (fuel : Nat) (path : Path) :
    (b.compileFile w fuel path).2.importDirs = b.importDirs := by
  unfold Builder.compileFile
  split
  · rfl
  · exact compile_dirs ..

/-- **C25, directories.**  Extracting from a directory, when it succeeds, delivers the schemas and
the warnings of all its files in order, each file extracted as if alone. -/
theorem C25_directory_delivers (w : World) (fuel : Nat) (paths : List Path) :
    ∀ {b b' : Builder} {out : SchemataOutput},
    Builder.extractFiles w fuel paths b = (.ok out, b') →
    ∃ outs : List SchemataOutput, out.warnings = outs.flatMap SchemataOutput.warnings ∧
      out.schemas = outs.flatMap SchemataOutput.schemas ∧
      Matching (fun p o =>
        (extractFrom fuel (Builder.compileFile ⟨b.importDirs, []⟩ w fuel p)).1 = .ok o)
        paths outs := by
  induction paths with
  | nil =>
    intro b b' out h
    simp only [Builder.extractFiles] at h
    injection h with h _
    injection h with h
    subst h
    exact ⟨[], rfl, rfl, .nil⟩
  | cons p ps ih =>
    intro b b' out h
    simp only [Builder.extractFiles] at h
    have hd := compileFile_dirs b w fuel p
    have hres := compileFile_result b [] w fuel p
    cases hc : b.compileFile w fuel p with
    | mk r b1 =>
      rw [hc] at h hd hres
      cases r with
      | error e => simp [extractFrom] at h
      | ok o1 =>
        simp only [extractFrom] at h
        cases hi : extractImpl fuel o1 with
        | error e => simp [hi] at h
        | ok o =>
          simp only [hi] at h
          cases hr : Builder.extractFiles w fuel ps b1 with
          | mk r2 b2 =>
            rw [hr] at h
            cases r2 with
            | error e => simp at h
            | ok rest =>
              simp only at h
              injection h with h _
              injection h with h
              subst h
              obtain ⟨outs, g1, g2, g3⟩ := ih hr
              simp only at hd
              rw [hd] at g3
              refine ⟨o :: outs, by simp [g1], by simp [g2], .cons ?_ g3⟩
              show (extractFrom fuel (Builder.compileFile { b with accumulated := [] } w fuel p)).1
                = .ok o
              cases hc' : Builder.compileFile { b with accumulated := [] } w fuel p with
              | mk r' b'' =>
                rw [hc'] at hres
                simp only at hres
                subst hres
                exact hi

/-! ## C27 -/

/-- The text declares a protocol or a main schema. -/
def HasMain (w : World) (text name : String) : Prop :=
  ∀ ss decls ws, parseIdl w text name ≠ .ok (.named ss, decls, ws)

omit [CharTables] [FloatTables] [CaseTables] in
theorem outputJson_terminates (out : CompileOutput) (h : ∀ ss, out.file ≠ .named ss) :
    ∃ j N, ∀ n, N ≤ n → outputJson n out = some j := by
  unfold outputJson
  cases hf : out.file with
  | named ss => exact absurd hf (h ss)
  | protocol p => exact C05_protocol_serialization_terminates p
  | schema s =>
    obtain ⟨⟨j, K⟩, N, hN⟩ :=
      C05_schema_serialization_terminates out.registry.schemas none s none []
    exact ⟨j, N, fun n hn => by simp only at hN ⊢; rw [hN n hn]; rfl⟩

omit [CharTables] [FloatTables] [CaseTables] in
theorem frontends_agree {f : Nat → Except CompileErr CompileOutput × Builder}
    {r : Except CompileErr CompileOutput × Builder} {N : Nat} (h : ∀ fuel, N ≤ fuel → f fuel = r)
    (hne : r.1 ≠ .error .timeout) :
    ∃ N', ∀ fuel, N' ≤ fuel →
      ((∃ e, (extractFrom fuel (f fuel)).1 = .error e ∧ (convertImpl fuel (f fuel)).1 = .error e ∧
          r.1 = .error e) ∨
       (∃ o, (extractFrom fuel (f fuel)).1 = .ok o ∧
          (((∃ o', (convertImpl fuel (f fuel)).1 = .ok o' ∧ o'.warnings = o.warnings) ∧
              ∃ out, r.1 = .ok out ∧ ∀ ss, out.file ≠ .named ss) ∨
           ((convertImpl fuel (f fuel)).1 = .error .neitherProtocolNorSchema ∧
              ∃ out ss, r.1 = .ok out ∧ out.file = .named ss)))) := by
  obtain ⟨r, b⟩ := r
  cases r with
  | error e =>
    refine ⟨N, fun fuel hf => .inl ⟨e, ?_, ?_, rfl⟩⟩
    · rw [h fuel hf]; rfl
    · rw [h fuel hf]; rfl
  | ok out =>
    obtain ⟨ss, N1, h1⟩ := C07_extraction_terminates out.registry.schemas
    simp only at h1
    by_cases hm : ∃ ss, out.file = .named ss
    · obtain ⟨ss', hm⟩ := hm
      refine ⟨max N N1, fun fuel hf => .inr ⟨⟨ss, out.warnings⟩, ?_, .inr ⟨?_, out, ss', rfl, hm⟩⟩⟩
      · rw [h fuel (by omega)]; simp only [extractFrom, extractImpl, h1 fuel (by omega)]
      · rw [h fuel (by omega)]; simp only [convertImpl, hm]
    · have hm' : ∀ ss, out.file ≠ .named ss := fun ss h => hm ⟨ss, h⟩
      obtain ⟨j, N2, h2⟩ := outputJson_terminates out hm'
      refine ⟨max N (max N1 N2), fun fuel hf => .inr ⟨⟨ss, out.warnings⟩, ?_,
        .inl ⟨⟨⟨j, out.warnings⟩, ?_, rfl⟩, out, rfl, hm'⟩⟩⟩
      · rw [h fuel (by omega)]; simp only [extractFrom, extractImpl, h1 fuel (by omega)]
      · rw [h fuel (by omega)]
        simp only [convertImpl, h2 fuel (by omega)]

theorem compile_named {b : Builder} {w : World} {fuel : Nat} {text name : String} {dir : Path}
    {path : Option Path} {out : CompileOutput}
    (h : (b.compile w fuel text name dir path).1 = .ok out) :
    (∀ ss, out.file ≠ .named ss) ↔ HasMain w text name := by
  cases hc : b.compile w fuel text name dir path with
  | mk r b' =>
    rw [hc] at h
    simp only at h
    subst h
    obtain ⟨file, decls, ws, es, seen, k, h1, _, _, _, _, _, h7, _⟩ := compile_ok hc
    unfold HasMain
    rw [h1]
    cases file with
    | protocol p =>
      cases hf : out.file with
      | protocol p' => simp
      | schema s => rw [hf] at h7; exact h7.elim
      | named ss => rw [hf] at h7; exact h7.elim
    | schema p =>
      cases hf : out.file with
      | schema p' => simp
      | protocol s => rw [hf] at h7; exact h7.elim
      | named ss => rw [hf] at h7; exact h7.elim
    | named p =>
      cases hf : out.file with
      | named p' => simp
      | protocol s => rw [hf] at h7; exact h7.elim
      | schema ss => rw [hf] at h7; exact h7.elim

/-- **C27.**  With finitely many files (and enough fuel): on every text, the two front ends succeed
and fail together, with the same error, except that `convert` rejects what has neither a protocol
nor a main schema; when both succeed they report the same warnings. -/
theorem C27_same_inputs {w : World} {files : List Path}
    (hfin : ∀ p q, w.canonicalize p = some q → q ∈ files) (b : Builder) (text name : String) :
    ∃ N, ∀ fuel, N ≤ fuel →
      ((∃ e, (b.extractStr w fuel text name).1 = .error e ∧
          (b.convertStr w fuel text name).1 = .error e) ∨
       (∃ o, (b.extractStr w fuel text name).1 = .ok o ∧
          ((HasMain w text name ∧
              ∃ o', (b.convertStr w fuel text name).1 = .ok o' ∧ o'.warnings = o.warnings) ∨
           (¬ HasMain w text name ∧
              (b.convertStr w fuel text name).1 = .error .neitherProtocolNorSchema)))) := by
  unfold Builder.extractStr Builder.convertStr Builder.compileStr
  cases hd : w.cwd with
  | none => exact ⟨0, fun _ _ => .inl ⟨_, rfl, rfl⟩⟩
  | some dir =>
    simp only
    obtain ⟨N, r, h1, h2⟩ := C21_compile_terminates hfin b text name dir none
    obtain ⟨N', h3⟩ := frontends_agree (f := fun fuel => b.compile w fuel text name dir none) h1 h2
    refine ⟨max N N', fun fuel hf => ?_⟩
    rcases h3 fuel (by omega) with ⟨e, a1, a2, _⟩ | ⟨o, a1, ⟨⟨o', a2, a3⟩, out, a4, a5⟩ |
      ⟨a2, out, ss, a4, a5⟩⟩
    · exact .inl ⟨e, a1, a2⟩
    · rw [← h1 fuel (by omega)] at a4
      exact .inr ⟨o, a1, .inl ⟨(compile_named a4).mp a5, o', a2, a3⟩⟩
    · rw [← h1 fuel (by omega)] at a4
      exact .inr ⟨o, a1, .inr ⟨fun hm => (compile_named a4).mpr hm ss a5, a2⟩⟩

/-- **C27, files.**  The same for files. -/
theorem C27_same_files {w : World} {files : List Path}
    (hfin : ∀ p q, w.canonicalize p = some q → q ∈ files) (b : Builder) (path : Path)
    (hdir : w.isDir path = false) :
    ∃ N, ∀ fuel, N ≤ fuel →
      ((∃ e, (b.extract w fuel path).1 = .error e ∧ (b.convert w fuel path).1 = .error e) ∨
       (∃ o text, (b.extract w fuel path).1 = .ok o ∧ w.read path = some text ∧
          ((HasMain w text path ∧
              ∃ o', (b.convert w fuel path).1 = .ok o' ∧ o'.warnings = o.warnings) ∨
           (¬ HasMain w text path ∧
              (b.convert w fuel path).1 = .error .neitherProtocolNorSchema)))) := by
  unfold Builder.extract Builder.convert
  simp only [hdir, Bool.false_eq_true, if_false]
  unfold Builder.compileFile
  cases hr : w.read path with
  | none => exact ⟨0, fun _ _ => .inl ⟨_, rfl, rfl⟩⟩
  | some text =>
    simp only
    obtain ⟨N, r, h1, h2⟩ := C21_compile_terminates hfin b text path
      ((w.canonicalize ((w.parent path).getD ".")).getD ((w.parent path).getD "."))
      (w.canonicalize path)
    obtain ⟨N', h3⟩ := frontends_agree h1 h2
    refine ⟨max N N', fun fuel hf => ?_⟩
    rcases h3 fuel (by omega) with ⟨e, a1, a2, _⟩ | ⟨o, a1, ⟨⟨o', a2, a3⟩, out, a4, a5⟩ |
      ⟨a2, out, ss, a4, a5⟩⟩
    · exact .inl ⟨e, a1, a2⟩
    · rw [← h1 fuel (by omega)] at a4
      exact .inr ⟨o, text, a1, rfl, .inl ⟨(compile_named a4).mp a5, o', a2, a3⟩⟩
    · rw [← h1 fuel (by omega)] at a4
      exact .inr ⟨o, text, a1, rfl, .inr ⟨fun hm => (compile_named a4).mpr hm ss a5, a2⟩⟩

end

/-! ## Examples -/

section
attribute [local instance] asciiTables exFloats exCases

private def exEnumDecl (name : String) : BodyItem :=
  .named (.enum ⟨0, [], name, [("X", none)], none, none⟩) none

private def exMessage (name : String) (result : Option PlainType) : BodyItem :=
  .message ⟨0, [], result, name, [], false, [], none⟩

private def exImport (kind : ImportKind) (file : String) : BodyItem :=
  .import_ ⟨kind, "\"" ++ file ++ "\"", none⟩

/-- An unrecognised character at the beginning of a file. -/
def exLexError (text : String) : LexError := ⟨text, 1, 0, ⟨0, 1, "f"⟩⟩

private def exProtocol (body : List BodyItem) : Source :=
  ⟨[⟨.other, "protocol"⟩], [], .protocol ⟨0, [], "P", body, none⟩, []⟩

/-- `/a` imports `/b` from a search directory, which imports `/a`, itself and a JSON schema; `/bad`
refers to an undefined type and has an invalid character; `/ann` has an annotation that is rejected
and an invalid character; `/named` has types only. -/
private def exWorld : World where
  join := fun d f => d ++ f
  parent := fun _ => some "/"
  fileName := fun p => some p
  exists_ := fun p => p == "/a" || p == "/lib/b" || p == "/s"
  canonicalize := fun p =>
    if p == "/lib/a" then some "/a" else
    if ["/a", "/lib/b", "/s", "/bad.avdl", "/ann", "/named"].contains p then some p else none
  cwd := some "/"
  isDir := fun p => p == "/dir"
  walk := fun p => if p == "/dir" then ["/dir", "/warn.avdl", "/s", "/bad.avdl"] else []
  read := fun p =>
    if ["/a", "/lib/b", "/s", "/bad.avdl", "/ann", "/named", "/warn.avdl"].contains p then some p else none
  parse := fun _ text =>
    if text == "/a" then some (exProtocol [exEnumDecl "A", exImport .idl "b", exMessage "m" none,
      exEnumDecl "A2"])
    else if text == "/lib/b" then some
      { exProtocol [exImport .idl "a", exEnumDecl "B", exImport .idl "b", exImport .schema "s",
          exMessage "m" (some (.prim (.prim .int) false none)), exMessage "n" none] with
        lexerErrors := [exLexError "?"] }
    else if text == "/bad.avdl" then some
      { exProtocol [exMessage "m" (some (.named "Undefined" none false))] with
        lexerErrors := [exLexError "!"] }
    else if text == "/ann" then some
      { exProtocol [.named (.enum ⟨0, [⟨"namespace", .null, none⟩], "A", [], none, none⟩) none] with
        lexerErrors := [exLexError "!"] }
    else if text == "/warn.avdl" then some { exProtocol [exEnumDecl "W"] with lexerErrors := [exLexError "w"] }
    else if text == "/named" then some
      ⟨[⟨.other, "enum"⟩], [], .schema none none [.named (.enum ⟨0, [], "N", [("X", none)], none, none⟩) none], []⟩
    else none
  parseJson := fun _ => some (.obj [("name", .str "S"), ("size", .num (.int 4)),
    ("type", .str "fixed")])

private def exBuilder : Builder := Builder.new.importDir "/lib/"

/-- What the tests below look at. -/
private def summary (r : Except CompileErr CompileOutput × Builder) :
    Option (List String × List (String × String) × List Report) :=
  match r.1 with
  | .error _ => none
  | .ok out => some (out.registry.names, (match out.file with
      | .protocol p => p.messages.map fun nm => (nm.1, match nm.2.response with
          | .prim .int => "int"
          | _ => "other")
      | _ => []), out.warnings)

/-- Non-vacuity of C20, C21, C22, C35: cyclic imports through a search directory; the types of `/b`
stand at the place of the import, each once; the own message `m` wins, `n` is added. -/
example : summary (exBuilder.compileFile exWorld 5 "/a") =
    some (["A", "B", "S", "A2"], [("n", "other"), ("m", "other")],
      [⟨.lexer (exLexError "?"), some "/lib/b"⟩]) := by decide

example : ∀ p q, exWorld.canonicalize p = some q →
    q ∈ ["/a", "/lib/b", "/s", "/bad.avdl", "/ann", "/named"] := by
  intro p q h
  simp only [exWorld] at h
  split at h
  · injection h with h; subst h; decide
  · split at h
    · rename_i hc
      injection h with h; subst h
      simpa using hc
    · cases h

/-- Non-vacuity of C10 and C25: the undefined name is reported and the warning is drained. -/
example : ((exBuilder.compileFile exWorld 5 "/bad.avdl").1.toOption.isNone,
    (exBuilder.compileFile exWorld 5 "/bad.avdl").2.drain.1) = (true, [⟨.lexer (exLexError "!"), none⟩]) := by decide

/-- Non-vacuity of C27: types only. -/
example : ((exBuilder.extract exWorld 5 "/named").1.toOption.map fun o => o.schemas.map Prod.fst,
    (exBuilder.convert exWorld 5 "/named").1.toOption.isNone) = (some ["N"], true) := by decide

/-- **C25 fails** for unreadable files: the warnings of an earlier compilation that failed are still
there after a later call fails to read its file. -/
theorem C25_fails_stale :
    let b1 := (exBuilder.convert exWorld 5 "/bad.avdl").2
    let r2 := b1.convert exWorld 5 "/missing"
    r2.1.toOption.isNone = true ∧ r2.2.drain.1 = [⟨.lexer (exLexError "!"), none⟩] ∧
    (exBuilder.convert exWorld 5 "/missing").2.drain.1 = [] := by
  refine ⟨?_, ?_, ?_⟩ <;> decide

/-- **C25 fails** for directories: when the second file fails, the warnings of the first are in
neither the result nor the builder. -/
theorem C25_fails_directory :
    let r := exBuilder.extract exWorld 5 "/dir"
    r.1.toOption.isNone = true ∧ r.2.drain.1 = [⟨.lexer (exLexError "!"), none⟩] ∧
    ((exBuilder.extract exWorld 5 "/warn.avdl").1.toOption.map SchemataOutput.warnings) =
      some [⟨.lexer (exLexError "w"), none⟩] := by
  refine ⟨?_, ?_, ?_⟩ <;> decide

/-- **C25 fails** for a file the reader rejects: the warning about its invalid character is lost. -/
theorem C25_fails_reader_error :
    let r := exBuilder.convert exWorld 5 "/ann"
    r.1.toOption.isNone = true ∧ r.2.drain.1 = [] ∧
    (exWorld.parse "/ann" "/ann").map Source.lexerErrors = some [exLexError "!"] := by
  refine ⟨?_, ?_, ?_⟩ <;> decide

end

end Avdl.Props
