import Verif.Lemmas.CompileOk
import Verif.Props.Reimport
/-!
# C55: which inputs compile
-/

namespace Avdl.Props
open Spec

section
variable [CharTables] [FloatTables] [CaseTables]

omit [FloatTables] [CaseTables] in
/-- **C55, JSON.**  Which JSON documents can be imported as a schema and as a protocol; it does not
depend on what has been compiled before. -/
theorem C55_json_importable (j : Json) (r : Registry) :
    ((∃ r', importSchema j r = .ok r') ↔ ImportableSchema j) ∧
    ((∃ x, importProtocol j r = .ok x) ↔ ImportableProtocol j) :=
  ⟨importSchema_isOk, importProtocol_isOk⟩

omit [FloatTables] [CaseTables] in
theorem runEvents_of_prefix {w : World} {fuel : Nat} {es l : List Event} {ev : Event} {k0 k : Core}
    {e : CompileErr} (hpre : es ++ [ev] <+: l) (h1 : runEvents w fuel es k0 = .ok k)
    (h2 : ev.run w fuel k = .error e) : runEvents w fuel l k0 = .error e := by
  obtain ⟨rest, rfl⟩ := hpre
  rw [List.append_assoc, runEvents_append w fuel es _ h1]
  simp [runEvents, h2]

theorem trace_flat {w : World} {dirs : List Path} {dir : Path} {seen : List Path} {text name : String}
    {file : IdlFile} {decls : List DeclItem} {ws : List Warning} {es : List Event} {e : Ending}
    (h1 : parseIdl w text name = .ok (file, decls, ws)) (h2 : Trace w dirs dir seen decls es e) :
    ∀ ev ∈ es, ∀ t ∈ ev.types, t.flatDef = true :=
  fun ev hev t ht => ((h2.out (parseIdl_out h1).decls ev hev).types t ht).2

omit [FloatTables] [CaseTables] in
theorem runEvents_start {w : World} {fuel : Nat} {es : List Event} {ms : List (String × Message)}
    {ws : List Report} (hfl : ∀ ev ∈ es, ∀ t ∈ ev.types, t.flatDef = true)
    (ht : runEvents w fuel es ⟨[], ms, ws⟩ ≠ .error .timeout) :
    (∃ k, runEvents w fuel es ⟨[], ms, ws⟩ = .ok k) ↔ EventsOk es := by
  have := runEvents_iff (w := w) (fuel := fuel) (es := es) (k := ⟨[], ms, ws⟩) (done := [])
    (by simp [registerAll]) (by simpa using hfl) ht
  simpa [EventsOk] using this

omit [CharTables] [FloatTables] [CaseTables] in
theorem fileRefersTo_message {p : Protocol} {x : String} :
    FileRefersTo (.protocol p) x ↔ ∃ nm ∈ p.messages, MessageMentions nm.2 x := by
  constructor
  · intro h
    cases h with
    | response hm h => exact ⟨_, hm, .response h⟩
    | parameter hm hf h => exact ⟨_, hm, .parameter hf h⟩
    | error hm he hs h => exact ⟨_, hm, .error he hs h⟩
  · rintro ⟨nm, hm, h⟩
    cases h with
    | response h => exact .response hm h
    | parameter hf h => exact .parameter hm hf h
    | error he hs h => exact .error hm he hs h

omit [FloatTables] [CaseTables] in
/-- What the finished file and the registry refer to. -/
theorem outputRefersTo_iff {file : IdlFile} {es : List Event} {c : Ctx}
    (hr : c.registry = registerAll (es.flatMap Event.types))
    (hm : c.messages = extendMessages [] (es.flatMap Event.messages)) (x : String) :
    ((∃ kt ∈ c.registry, ∃ sp, RefersTo kt.2 x sp) ∨ FileRefersTo (finishFile file c) x) ↔
      OutputRefersTo file es x := by
  have hfa : c.registry = firstAccepted [] (es.flatMap Event.types) := by
    rw [hr, C08_registry_is_first_accepted]
  have hmsg : ∀ {p : Protocol} n m, (n, m) ∈ extendMessages c.messages p.messages ↔
      lastEntry (es.flatMap Event.messages ++ p.messages) n = some m := by
    intro p n m
    obtain ⟨a1, a2⟩ := extendMessages_spec (es.flatMap Event.messages) [] (by simp)
    obtain ⟨b1, b2⟩ := extendMessages_spec p.messages _ a1
    rw [hm, b2, a2, lastEntry_append]
    cases lastEntry p.messages n <;> simp
  constructor
  · rintro (⟨kt, hk, sp, h⟩ | h)
    · exact .type (hfa ▸ hk) h
    · cases file with
      | protocol p =>
        obtain ⟨nm, hnm, h⟩ := fileRefersTo_message.mp h
        exact .message rfl ((hmsg nm.1 nm.2).mp hnm) h
      | schema s => cases h with | schema h => exact .schema rfl h
      | named ss => cases h with | named hs h => exact .named rfl hs h
  · intro h
    cases h with
    | type hk h => exact .inl ⟨_, hfa ▸ hk, _, h⟩
    | schema hf h => subst hf; exact .inr (.schema h)
    | named hf hs h => subst hf; exact .inr (.named hs h)
    | @message p n m hf hl h =>
      subst hf
      exact .inr (fileRefersTo_message.mpr ⟨(n, m), (hmsg n m).mpr hl, h⟩)

/-- The file can be compiled: it can be read, all its imports can be followed, each declaration and
imported document is acceptable where it stands, and in the end every name referred to is
defined. -/
def Compiles (w : World) (dirs : List Path) (text name : String) (dir : Path)
    (path : Option Path) : Prop :=
  ∃ file decls ws es seen, parseIdl w text name = .ok (file, decls, ws) ∧
    Trace w dirs dir path.toList decls es (.finished seen) ∧ EventsOk es ∧
    ∀ x, OutputRefersTo file es x → x ∈ (firstAccepted [] (es.flatMap Event.types)).map Prod.fst

/-- **C55.**  Whatever the builder was used for before, a compilation succeeds if and only if the
file can be compiled. -/
theorem C55_compiles_iff (b : Builder) {w : World} {fuel : Nat} {text name : String} {dir : Path}
    {path : Option Path} (hne : (b.compile w fuel text name dir path).1 ≠ .error .timeout) :
    (∃ out, (b.compile w fuel text name dir path).1 = .ok out) ↔
      Compiles w b.importDirs text name dir path := by
  cases hp : parseAndResolve w b.importDirs fuel text name dir path Ctx.new with
  | mk r c =>
    cases r with
    | ok f =>
      obtain ⟨file, decls, ws, es, seen, k, h1, h2, h3, h4, h5, _, h7⟩ := parseAndResolve_ok hp
      obtain ⟨e1, e2, _⟩ := runEvents_effect h3
      have hreg : c.registry = registerAll (es.flatMap Event.types) := by rw [h4, e1]; rfl
      have hev : EventsOk es := (runEvents_start (trace_flat h1 h2) (by rw [h3]; simp)).mp ⟨_, h3⟩
      have href := outputRefersTo_iff (file := file) hreg (by rw [h5, e2])
      rw [← h7] at href
      have hC : Compiles w b.importDirs text name dir path ↔
          ¬ ∃ x, ((∃ kt ∈ c.registry, ∃ sp, RefersTo kt.2 x sp) ∨ FileRefersTo f x) ∧
            x ∉ c.registry.names := by
        constructor
        · rintro ⟨file', decls', ws', es', seen', g1, g2, _, g4⟩ ⟨x, hx, hn⟩
          rw [h1] at g1; injection g1 with g1; injection g1 with g1 g1'; injection g1' with g1' _
          subst g1 g1'
          have hes := C21_trace_determined g2 h2
          subst hes
          apply hn
          have := g4 x ((href x).mp hx)
          rw [hreg, C08_registry_is_first_accepted]
          exact this
        · intro hno
          refine ⟨file, decls, ws, es, seen, h1, h2, hev, fun x hx => ?_⟩
          rw [← C08_registry_is_first_accepted, ← hreg]
          exact Classical.not_not.mp fun hn => hno ⟨x, (href x).mpr hx, hn⟩
      rcases C10_compile b hp with ⟨h, hno⟩ | ⟨xs, h, hxs, _, hall⟩
      · exact ⟨fun _ => hC.mpr hno, fun _ => h⟩
      · constructor
        · rintro ⟨out, ho⟩; rw [h] at ho; cases ho
        · intro hcomp
          refine absurd ?_ (hC.mp hcomp)
          cases xs with
          | nil => exact absurd rfl hxs
          | cons y ys => exact ⟨y.1, (hall y.1).mp (by simp)⟩
    | error e =>
      have hcomp : (b.compile w fuel text name dir path).1 = .error e := by
        simp only [Builder.compile, hp]
      rw [hcomp] at hne ⊢
      have hte : e ≠ .timeout := fun h => hne (by rw [h])
      simp only [reduceCtorEq, exists_false, false_iff]
      rintro ⟨file, decls, ws, es, seen, g1, g2, g3, _⟩
      unfold parseAndResolve at hp
      simp only [g1] at hp
      have hf := processDecls_follows w b.importDirs fuel fuel decls dir
        { Ctx.new with warnings := Ctx.new.warnings ++ ws.map fun x => ⟨x, none⟩,
                       imported := path.toList ++ Ctx.new.imported }
      generalize processDecls w b.importDirs fuel fuel decls dir _ = r at hp hf
      cases hf with
      | done => simp at hp
      | @stuck es' k e' c' h1 h2 h3 =>
        have h1' : Trace w b.importDirs dir path.toList decls es' (.stuck e') := by
          simpa [Ctx.new] using h1
        rcases g2.det h1' with ⟨h, _⟩ | ⟨h, _⟩ | ⟨_, h⟩ <;> cases h
      | @failed es' ev k e' c' h1 h2 h3 h4 =>
        simp only at hp
        injection hp with ha hb
        injection ha with ha
        subst ha
        have h1' : Trace w b.importDirs dir path.toList decls (es' ++ [ev]) .cut := by
          simpa [Ctx.new] using h1
        have hpre : es' ++ [ev] <+: es := by
          rcases g2.det h1' with ⟨h, _⟩ | ⟨_, h⟩ | ⟨_, h⟩
          · cases h
          · exact h
          · cases h
        have herr := runEvents_of_prefix hpre h2 h3
        have hstart : (Ctx.core { Ctx.new with
            warnings := Ctx.new.warnings ++ ws.map fun x => ⟨x, none⟩,
            imported := path.toList ++ Ctx.new.imported }) =
            ⟨[], [], ws.map fun x => ⟨x, none⟩⟩ := by simp [Ctx.core, Ctx.new]
        rw [hstart] at herr
        obtain ⟨k', hk'⟩ := (runEvents_start (trace_flat g1 g2)
          (by rw [herr]; simpa using hte)).mpr g3
        rw [herr] at hk'; cases hk'
      | timeout =>
        simp only at hp
        injection hp with ha _
        injection ha with ha
        exact absurd ha.symm hte

/-- **C55, with finitely many files.**  From some fuel on, a compilation succeeds if and only if the
file can be compiled. -/
theorem C55_compiles_eventually {w : World} {files : List Path}
    (hfin : ∀ p q, w.canonicalize p = some q → q ∈ files) (b : Builder) (text name : String)
    (dir : Path) (path : Option Path) :
    ∃ N, ∀ fuel, N ≤ fuel → ((∃ out, (b.compile w fuel text name dir path).1 = .ok out) ↔
      Compiles w b.importDirs text name dir path) := by
  obtain ⟨N, r, h1, h2⟩ := C21_compile_terminates hfin b text name dir path
  exact ⟨N, fun fuel hf => C55_compiles_iff b (by rw [h1 fuel hf]; exact h2)⟩

end

/-! ## Examples -/

section
attribute [local instance] asciiTables exFloats exCases exJsonFloats

/-- Some files to import. -/
def exImports (p : Path) : Option String :=
  if p = "s" then some "{\"type\":\"fixed\",\"name\":\"F\",\"size\":4}"
  else if p = "t" then some "{\"type\":\"fixed\",\"name\":\"F\"}"
  else if p = "b" then some "protocol B { record Bar { int x; } Bar get(); }"
  else if p = "u" then some "protocol U { Nowhere get(); }"
  else none

/-- How the compilation of a text ends: `none` if the fuel runs out. -/
def exEnds (text : String) : Option Bool :=
  match (Builder.new.compile (exReimportWorld exImports) 9 text "" "" none).1 with
  | .error .timeout => none
  | .error _ => some false
  | .ok _ => some true

theorem exEnds_iff (text : String) (b : Bool) (h : exEnds text = some b) :
    b = true ↔ Compiles (exReimportWorld exImports) [] text "" "" none := by
  rw [show ([] : List Path) = Builder.new.importDirs from rfl,
    ← C55_compiles_iff Builder.new (fuel := 9) (by
      intro ht; unfold exEnds at h; rw [ht] at h; cases h)]
  unfold exEnds at h
  cases hc : (Builder.new.compile (exReimportWorld exImports) 9 text "" "" none).1 with
  | ok out =>
    rw [hc] at h
    injection h with h; subst h
    simp
  | error e =>
    rw [hc] at h
    cases e with
    | timeout => cases h
    | _ =>
      injection h with h; subst h
      simp

/-- Imports, a recursive record, defaults of declared types. -/
def exGood : String :=
  "protocol P { import schema \"s\"; import idl \"b\"; " ++
  "record R { union { null, R } r = null; F f; Bar b = {\"x\": 1}; Late l = 3; } enum Late { A } }"

example : Compiles (exReimportWorld exImports) [] exGood "" "" none :=
  (exEnds_iff _ true (by decide +kernel)).mp rfl
-- one mistake each: a type that is not defined, also in an imported message that is not overridden,
-- two definitions, an import that is missing or not convertible, a default of a wrong type
example : exEnds "protocol P { import idl \"b\"; Nowhere get(); }" = some false := by decide +kernel
example : exEnds "protocol P { import idl \"u\"; }" = some false := by decide +kernel
example : exEnds "protocol P { import idl \"u\"; int get(); }" = some true := by decide +kernel
example : exEnds "protocol P { import idl \"b\"; enum Bar { X } }" = some false := by
  decide +kernel
example : exEnds "protocol P { import idl \"c\"; }" = some false := by decide +kernel
example : exEnds "protocol P { import schema \"t\"; }" = some false := by decide +kernel
example : exEnds "protocol P { import idl \"b\"; record R { Bar b = {}; } }" = some false := by
  decide +kernel

end

end Avdl.Props
