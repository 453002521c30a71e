import Verif.Lemmas.Problem
import Verif.Lemmas.Positions
import Verif.Props.CompileOk
/-!
# C56: which error is reported, and where
-/

namespace Avdl.Props
open Spec

section
variable [CharTables] [FloatTables] [CaseTables]

/-- **C56.**  The error of a compilation that fails says what is wrong with the project and comes
first, in the order in which declarations and imports are followed.  (Whatever the builder was used
for before.) -/
theorem C56_first_problem (b : Builder) {w : World} {fuel : Nat} {text name : String} {dir : Path}
    {path : Option Path} {e : CompileErr}
    (h : (b.compile w fuel text name dir path).1 = .error e) (hne : e ≠ .timeout) :
    Problem w b.importDirs text name dir path e := by
  cases hp : parseAndResolve w b.importDirs fuel text name dir path Ctx.new with
  | mk r c =>
    cases r with
    | ok f =>
      obtain ⟨file, decls, ws, es, seen, k, h1, h2, h3, h4, h5, _, h7⟩ := parseAndResolve_ok hp
      obtain ⟨e1, e2, _⟩ := runEvents_effect h3
      have hreg : c.registry = registerAll (es.flatMap Event.types) := by rw [h4, e1]; rfl
      have hev : EventsOk es := (runEvents_start (trace_flat h1 h2) (by rw [h3]; simp)).mp ⟨_, h3⟩
      have href := outputRefersTo_iff (file := file) hreg (by rw [h5, e2])
      rw [← h7] at href
      rcases C10_compile b hp with ⟨⟨out, ho⟩, _⟩ | ⟨xs, hx, hxs, hnd, hall⟩
      · rw [h] at ho; cases ho
      · rw [h] at hx; injection hx with hx; subst hx
        refine .undefined h1 h2 hev hxs hnd fun x => ?_
        rw [hall, href, hreg, C08_registry_is_first_accepted]
        rfl
    | error e' =>
      have hcomp : (b.compile w fuel text name dir path).1 = .error e' := by
        simp only [Builder.compile, hp]
      rw [h] at hcomp
      injection hcomp with hcomp
      subst hcomp
      unfold parseAndResolve at hp
      cases h1 : parseIdl w text name with
      | error e' =>
        rw [h1] at hp
        injection hp with ha _; injection ha with ha; subst ha
        exact .file h1
      | ok r =>
        obtain ⟨file, decls, ws⟩ := r
        simp only [h1] at hp
        have hf := processDecls_follows w b.importDirs fuel fuel decls dir
          { Ctx.new with warnings := Ctx.new.warnings ++ ws.map fun x => ⟨x, none⟩,
                         imported := path.toList ++ Ctx.new.imported }
        generalize processDecls w b.importDirs fuel fuel decls dir _ = r at hp hf
        have hstart : (Ctx.core { Ctx.new with
            warnings := Ctx.new.warnings ++ ws.map fun x => ⟨x, none⟩,
            imported := path.toList ++ Ctx.new.imported }) =
            ⟨[], [], ws.map fun x => ⟨x, none⟩⟩ := by simp [Ctx.core, Ctx.new]
        cases hf with
        | done => simp at hp
        | @stuck es' k e' c' g1 g2 g3 =>
          simp only at hp
          injection hp with ha _; injection ha with ha; subst ha
          have g1' : Trace w b.importDirs dir path.toList decls es' (.stuck e') := by
            simpa [Ctx.new] using g1
          rw [hstart] at g2
          exact .import_ h1 g1' ((runEvents_start (trace_flat h1 g1') (by rw [g2]; simp)).mp ⟨_, g2⟩)
        | @failed es' ev k e' c' g1 g2 g3 g4 =>
          simp only at hp
          injection hp with ha _; injection ha with ha; subst ha
          have g1' : Trace w b.importDirs dir path.toList decls (es' ++ [ev]) .cut := by
            simpa [Ctx.new] using g1
          rw [hstart] at g2
          have hfl := trace_flat h1 g1'
          have hev := (runEvents_start (es := es') (fun ev hev => hfl ev (by simp [hev]))
            (by rw [g2]; simp)).mp ⟨_, g2⟩
          refine .event h1 g1' hev (Event.run_fails (k := k) ?_ ?_ (hfl ev (by simp)) g3 hne)
          · rw [(runEvents_effect g2).1]; rfl
          · intro t ht
            obtain ⟨ev', he', ht⟩ := List.mem_flatMap.mp ht
            exact hfl ev' (by simp [he']) t ht
        | timeout =>
          simp only at hp
          injection hp with ha _
          injection ha with ha
          exact absurd ha.symm hne

/-- **C56, imports.**  When a compilation fails because an import cannot be found or its JSON is not
usable, the position is that of the word `import` of an import statement. -/
theorem C56_import_where_written {w : World} (hw : w.parse = parseSource) {b : Builder}
    {fuel : Nat} {text name : String} {dir : Path} {path : Option Path} {span : Option Span}
    {cause : CompileErr}
    (h : (b.compile w fuel text name dir path).1 = .error (.importFailed span cause)) :
    ∃ s, span = some s ∧ PointsAtWord w text name s "import" :=
  (compile_reported hw h).2 (by simp)

/-- **C56, default values.**  When a compilation fails because of invalid default values, each of
them is reported at the default value of that field, in a declaration of that type. -/
theorem C56_default_where_written {w : World} (hw : w.parse = parseSource) {b : Builder}
    {fuel : Nat} {text name : String} {dir : Path} {path : Option Path} {type : String}
    {first : String × DefaultReason} {span : Option Span}
    {related : List (String × DefaultReason × Span)}
    (h : (b.compile w fuel text name dir path).1 =
      .error (.invalidDefaults type first span related)) :
    (∃ s, span = some s ∧ PointsAtDefault w text name type first.1 s) ∧
    ∀ y ∈ related, PointsAtDefault w text name type y.1 y.2.2 :=
  (compile_reported hw h).2 (by simp)

/-- **C56, all invalid default values.**  When a compilation fails because of invalid default values,
the error lists all fields of the declaration with bad default values, in order. -/
theorem C56_all_bad_defaults {w : World} (hw : w.parse = parseSource) {b : Builder}
    {fuel : Nat} {text name : String} {dir : Path} {path : Option Path} {type : String}
    {first : String × DefaultReason} {span : Option Span}
    {related : List (String × DefaultReason × Span)}
    (h : (b.compile w fuel text name dir path).1 =
      .error (.invalidDefaults type first span related)) :
    ∃ file decls ws es n ns d fs e al ps sp spans,
      parseIdl w text name = .ok (file, decls, ws) ∧
      Trace w b.importDirs dir path.toList decls
        (es ++ [.type (.record n ns d fs e al ps) sp spans]) .cut ∧
      type = makeFullName n ns ∧
      first.1 :: related.map Prod.fst = badDefaults (definition (firstAccepted []
        (es.flatMap Event.types ++ [.record n ns d fs e al ps]))) fs := by
  cases C56_first_problem b h (by simp) with
  | file h1 =>
    unfold parseIdl at h1
    split at h1
    · cases h1
    · split at h1 <;> cases h1
  | @import_ file decls ws es _ h1 h2 _ =>
    exact absurd rfl (h2.stuck_not_defaults _ type first span related rfl)
  | @event file decls ws es ev _ h1 h2 _ h4 =>
    cases h4 with
    | @defaults n ns d fs e al ps sp spans _ _ _ x xs _ _ g3 g4 g5 =>
      have hpl := h2.placed hw (parseIdl_places (J := []) hw (.inl ⟨rfl, rfl⟩) h1).1.placed
        _ sp spans (List.mem_append_right _ (List.mem_singleton.mpr rfl))
      exact ⟨file, decls, ws, es, n, ns, d, fs, e, al, ps, sp, spans, h1, h2, rfl,
        by rw [g3, g4, g5 hpl]⟩

end

/-! ## Examples -/

section
attribute [local instance] asciiTables exFloats exCases exJsonFloats

/-- The error of the compilation of a text. -/
def exProblem (text : String) : Option CompileErr :=
  match (Builder.new.compile (exReimportWorld exImports) 9 text "a" "" none).1 with
  | .error e => some e
  | .ok _ => none

/-- Two bad default values: both are reported, at the values. -/
example : (match exProblem ("protocol P { record B { int x; } " ++
      "record R { B a = 1; B b = {\"x\": 1}; B c = {}; } }") with
    | some (.invalidDefaults t x sp l) =>
        decide (t = "R" ∧ x.1 = "a" ∧ sp = some ⟨50, 1, "a"⟩ ∧
          l.map (fun y => (y.1, y.2.2)) = [("c", ⟨75, 1, "a"⟩)])
    | _ => false) = true := by decide +kernel

/-- The first of two problems is reported: the import comes before the declarations. -/
example : (match exProblem "protocol P { enum E { A } import idl \"c\"; enum E { A } }" with
    | some (.importFailed sp (.importNotFound "c" [""])) => decide (sp = some ⟨26, 6, "a"⟩)
    | _ => false) = true := by decide +kernel
example : (match exProblem "protocol P { enum E { A } enum E { A } import idl \"c\"; }" with
    | some (.register (.duplicate "E") sp) => decide (sp = some ⟨26, 4, "a"⟩)
    | _ => false) = true := by decide +kernel
example : (match exProblem "protocol P { import schema \"t\"; }" with
    | some (.importFailed sp (.importJson "t" e)) =>
        decide (sp = some ⟨13, 6, "a"⟩ ∧ e = ⟨[], .missingSize⟩)
    | _ => false) = true := by decide +kernel

/-- A world in which an imported file exists but cannot be read. -/
def exUnreadable : World :=
  { exReimportWorld exImports with exists_ := fun _ => true, canonicalize := fun p => some p }

theorem exUnreadable_check :
    (match (Builder.new.compile exUnreadable 9 "protocol P { import idl \"d\"; }" "a" "" none).1 with
    | .error (.unreadable p) => decide (p = "d")
    | _ => false) = true := by decide +kernel

/-- **C56 fails for imported IDL files.**  When an imported IDL file cannot be read, the error does not
point at the import statement: `unreadable` has no position (it does for JSON files). -/
theorem C56_fails_unreadable_idl : ∃ (w : World) (text : String) (p : Path),
    w.parse = parseSource ∧ w.read p = none ∧
    (Builder.new.compile w 9 text "a" "" none).1 = .error (.unreadable p) := by
  refine ⟨exUnreadable, "protocol P { import idl \"d\"; }", "d", rfl, by decide, ?_⟩
  have h := exUnreadable_check
  split at h
  · rename_i p hp
    rw [hp, of_decide_eq_true h]
  · cases h

end

end Avdl.Props
