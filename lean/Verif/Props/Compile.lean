import Verif.Lemmas.CompileFacts
import Verif.Props.Output
import Verif.Props.ReaderTypes
/-!
# C10, C20, C21, C22, C25, C27, C35: compilation

For every file system, search path and builder state.
-/

namespace Avdl.Props
open Spec

section
variable [CharTables] [FloatTables] [CaseTables]

/-! ## C20 -/

omit [CharTables] [FloatTables] [CaseTables] in
/-- **C20.**  An import refers to the first of the importing file's directory and the search
directories, in this order, that has the file. -/
theorem C20_search_order (w : World) (dirs : List Path) (file : String) (dir p : Path) :
    resolveImport w dirs file dir = .ok p ↔ ImportsTo w dirs dir file p := resolveImport_ok

omit [CharTables] [FloatTables] [CaseTables] in
/-- **C20, failure.**  If paths of existing files can be made canonical, an import fails exactly
when none of the directories has the file. -/
theorem C20_fails_iff_missing (w : World) (dirs : List Path) (file : String) (dir : Path)
    (hw : ∀ p, w.exists_ p = true → ∃ q, w.canonicalize p = some q) :
    (∃ e, resolveImport w dirs file dir = .error e) ↔
      ∀ d ∈ dir :: dirs, w.exists_ (w.join d file) = false := by
  have hs := searchDirs_spec w file (dir :: dirs)
  unfold resolveImport
  cases h : searchDirs w file (dir :: dirs) with
  | none => rw [h] at hs; exact ⟨fun _ => hs, fun _ => ⟨_, rfl⟩⟩
  | some p =>
    rw [h] at hs
    obtain ⟨i, d, h1, h2, h3, _⟩ := hs
    obtain ⟨q, hq⟩ := hw p h3
    simp only [hq, reduceCtorEq, exists_false, false_iff]
    intro hall
    have := hall d (List.mem_of_getElem? h1)
    rw [← h2, h3] at this; cases this

omit [CharTables] [FloatTables] [CaseTables] in
/-- The search directories are tried in the order they were given to the builder. -/
theorem C20_directories_in_order (ds : List Path) :
    (ds.foldl Builder.importDir Builder.new).importDirs = ds := by
  suffices ∀ b : Builder, (ds.foldl Builder.importDir b).importDirs = b.importDirs ++ ds from
    this Builder.new
  induction ds with
  | nil => intro b; simp
  | cons d ds ih => intro b; simp [ih, Builder.importDir]

/-! ## What a successful compilation has gone through -/

/-- A successful compilation: the file is read, its declarations have a complete trace, the
registry holds the first accepted definition of each name in the order of the trace, the warnings
are those of the file and of the trace, in order. -/
theorem compile_ok {b b' : Builder} {w : World} {fuel : Nat} {text name : String} {dir : Path}
    {path : Option Path} {out : CompileOutput}
    (h : b.compile w fuel text name dir path = (.ok out, b')) :
    ∃ file decls ws es seen k, parseIdl w text name = .ok (file, decls, ws) ∧
      Trace w b.importDirs dir path.toList decls es (.finished seen) ∧
      runEvents w fuel es ⟨[], [], []⟩ = .ok k ∧
      out.registry = registerAll (es.flatMap Event.types) ∧
      out.registry = k.registry ∧
      out.warnings = ws.map (fun x => ⟨x, none⟩) ++ es.flatMap (Event.reports w) ∧
      (match file, out.file with
        | .protocol p, .protocol p' => p' = { p with
            types := out.registry.schemas,
            messages := extendMessages (extendMessages [] (es.flatMap Event.messages)) p.messages }
        | .schema s, .schema s' => s' = s
        | .named ss, .named ss' => ss' = ss
        | _, _ => False) ∧
      undefinedNames out.file out.registry = [] ∧
      b' = { b with accumulated := [] } := by
  unfold Builder.compile at h
  simp only at h
  split at h
  · injection h with h _; cases h
  · rename_i f c hp
    obtain ⟨file, decls, ws, es, seen, k, h1, h2, h3, h4, h5, h6, h7⟩ := parseAndResolve_ok hp
    obtain ⟨e1, e2, _⟩ := runEvents_effect h3
    split at h
    · injection h with h _; cases h
    · rename_i hv
      injection h with ha hb
      injection ha with ha
      subst ha hb
      refine ⟨file, decls, ws, es, seen, k, h1, h2, h3, by rw [h4, e1]; rfl, h4, h6, ?_, ?_, rfl⟩
      · simp only
        rw [h7]
        cases file with
        | protocol p => simp only [finishFile]; rw [h5, e2]
        | schema s => rfl
        | named ss => rfl
      · unfold validateAllReferences at hv
        split at hv
        · rename_i hu; exact hu
        · cases hv

/-! ## C21 -/

/-- **C21.**  During a successful compilation no file is processed twice, and the compiled file
itself (when it has a path) is not processed again. -/
theorem C21_at_most_once {b b' : Builder} {w : World} {fuel : Nat} {text name : String} {dir : Path}
    {path : Option Path} {out : CompileOutput}
    (h : b.compile w fuel text name dir path = (.ok out, b')) :
    ∃ file decls ws es seen, parseIdl w text name = .ok (file, decls, ws) ∧
      Trace w b.importDirs dir path.toList decls es (.finished seen) ∧
      out.registry = registerAll (es.flatMap Event.types) ∧
      (es.filterMap Event.path?).Nodup ∧ ∀ p, path = some p → p ∉ es.filterMap Event.path? := by
  obtain ⟨file, decls, ws, es, seen, k, h1, h2, _, h4, _⟩ := compile_ok h
  obtain ⟨g1, g2, _⟩ := h2.paths
  refine ⟨file, decls, ws, es, seen, h1, h2, h4, g1, ?_⟩
  rintro p rfl hm
  exact g2 p hm (by simp)

/-- **C21, every trace.**  Also on the way to a failure no file is processed twice. -/
theorem C21_trace_at_most_once {w : World} {dirs : List Path} {dir : Path} {seen : List Path}
    {items : List DeclItem} {es : List Event} {e : Ending}
    (h : Trace w dirs dir seen items es e) :
    (es.filterMap Event.path?).Nodup ∧ ∀ p ∈ es.filterMap Event.path?, p ∉ seen :=
  ⟨h.paths.1, h.paths.2.1⟩

/-- The sequence of events is determined by the files. -/
theorem C21_trace_determined {w : World} {dirs : List Path} {dir : Path} {seen : List Path}
    {items : List DeclItem} {es es' : List Event} {seen' seen'' : List Path}
    (h : Trace w dirs dir seen items es (.finished seen'))
    (h' : Trace w dirs dir seen items es' (.finished seen'')) : es = es' := by
  rcases h.det h' with ⟨h, _⟩ | ⟨h, _⟩ | ⟨h, _⟩
  · cases h
  · cases h
  · exact h

/-- **C21, termination.**  With finitely many files a compilation terminates: from some fuel on the
outcome is always the same and not a timeout. -/
theorem C21_compile_terminates {w : World} {files : List Path}
    (hfin : ∀ p q, w.canonicalize p = some q → q ∈ files) (b : Builder) (text name : String)
    (dir : Path) (path : Option Path) :
    ∃ N r, (∀ fuel, N ≤ fuel → b.compile w fuel text name dir path = r) ∧
      r.1 ≠ .error .timeout := by
  obtain ⟨N, ⟨r, c⟩, h1, h2⟩ := parseAndResolve_settles (dirs := b.importDirs) hfin text name dir
    path Ctx.new (by intro kt hkt; cases hkt)
  unfold Builder.compile
  simp only
  cases r with
  | error e =>
    refine ⟨N, (.error e, { b with accumulated := c.warnings }), fun fuel hf => ?_, by simpa using h2⟩
    rw [h1 fuel hf]
  | ok file =>
    cases hv : validateAllReferences file c.registry with
    | error e =>
      refine ⟨N, (.error e, { b with accumulated := c.warnings }), fun fuel hf => ?_, ?_⟩
      · rw [h1 fuel hf]; simp only [hv]
      · unfold validateAllReferences at hv
        split at hv
        · cases hv
        · injection hv with hv; subst hv; simp
    | ok u =>
      refine ⟨N, (.ok ⟨file, c.registry, c.warnings⟩, { b with accumulated := [] }),
        fun fuel hf => ?_, by simp⟩
      rw [h1 fuel hf]; simp only [hv]

/-! ## C35 -/

omit [CharTables] [FloatTables] [CaseTables] in
theorem trace_types [CharTables] [FloatTables] [CaseTables] {w : World} {dirs : List Path}
    {dir : Path} {seen : List Path}
    {items : List DeclItem} {es : List Event} {e : Ending} (h : Trace w dirs dir seen items es e) :
    (∃ seen', e = .finished seen') →
    ∀ s span spans, DeclItem.type s span spans ∈ items → Event.type s span spans ∈ es := by
  induction h with
  | nil => intro _ s span spans h; cases h
  | cut => rintro ⟨_, h⟩; cases h
  | type _ ih =>
    intro he s span spans h
    rcases List.mem_cons.mp h with h | h
    · injection h with h1 h2 h3; subst h1 h2 h3; exact List.mem_cons_self ..
    · exact List.mem_cons_of_mem _ (ih he s span spans h)
  | notFound => rintro ⟨_, h⟩; cases h
  | notCanonical => rintro ⟨_, h⟩; cases h
  | badJson => rintro ⟨_, h⟩; cases h
  | badIdl => rintro ⟨_, h⟩; cases h
  | again _ _ _ ih =>
    intro he s span spans h
    rcases List.mem_cons.mp h with h | h
    · cases h
    · exact ih he s span spans h
  | schema _ _ _ _ _ ih | protocol _ _ _ _ _ ih =>
    intro he s span spans h
    rcases List.mem_cons.mp h with h | h
    · cases h
    · exact List.mem_cons_of_mem _ (ih he s span spans h)
  | idl _ _ _ _ _ _ _ ih =>
    intro he s span spans h
    rcases List.mem_cons.mp h with h | h
    · cases h
    · exact List.mem_cons_of_mem _ (List.mem_append_right _ (ih he s span spans h))
  | idlEnds _ _ _ _ _ hne =>
    rintro ⟨_, rfl⟩; exact absurd rfl (hne _)

/-- **C35.**  After a successful compilation the registry lists the first accepted definition of
each name in the order of the events, imports taking the place of the import statement; every type
declared in the file is among them with exactly its definition, and the extracted schemata are in
this order. -/
theorem C35_registry_order {b b' : Builder} {w : World} {fuel : Nat} {text name : String}
    {dir : Path} {path : Option Path} {out : CompileOutput}
    (h : b.compile w fuel text name dir path = (.ok out, b')) :
    ∃ file decls ws es seen, parseIdl w text name = .ok (file, decls, ws) ∧
      Trace w b.importDirs dir path.toList decls es (.finished seen) ∧
      out.registry = firstAccepted [] (es.flatMap Event.types) ∧
      (∀ s span spans, DeclItem.type s span spans ∈ decls →
        ∃ full, s.fullName? = some full ∧ (full, s) ∈ out.registry) ∧
      ∀ n l, extractSchemas n out.registry.schemas = some l →
        l.map (fun nj => some nj.1) = (firstAccepted [] (es.flatMap Event.types)).map
          fun ks => ks.2.name? := by
  obtain ⟨file, decls, ws, es, seen, k, h1, h2, h3, h4, h5, _⟩ := compile_ok h
  have h4' : out.registry = firstAccepted [] (es.flatMap Event.types) := by
    rw [h4, C08_registry_is_first_accepted]
  refine ⟨file, decls, ws, es, seen, h1, h2, h4', ?_, ?_⟩
  · intro s span spans hm
    obtain ⟨_, full, hf, hk⟩ := runEvents_declared h3 s span spans
      (trace_types h2 ⟨_, rfl⟩ s span spans hm)
    exact ⟨full, hf, by rw [h5]; exact hk⟩
  · intro n l hl
    have hok : out.registry.Ok := by rw [h4]; exact C08_registry_ok _
    rw [← h4']
    have key : ∀ lk (r : Registry), r.Ok → ∀ l,
        extractSchemas.go n lk r.schemas = some l →
        l.map (fun nj => some nj.1) = r.map fun ks => ks.2.name? := by
      intro lk r
      induction r with
      | nil => intro _ l h; simp [Registry.schemas, extractSchemas.go] at h; subst h; rfl
      | cons kt r ih =>
        intro hr l h
        have hn := (hr kt (List.mem_cons_self ..)).1
        have hr' : Registry.Ok r := fun x hx => hr x (List.mem_cons_of_mem _ hx)
        obtain ⟨nm, hnm⟩ : ∃ nm, kt.2.name? = some nm := by
          cases hk : kt.2 <;> rw [hk] at hn <;> first | exact ⟨_, rfl⟩ | exact absurd hn (by simp [Schema.IsNamed])
        simp only [Registry.schemas, List.map_cons, extractSchemas.go, hnm] at h
        split at h
        · cases h
        · rename_i j K hj
          cases hg : extractSchemas.go n lk (List.map Prod.snd r) with
          | none => rw [hg] at h; cases h
          | some l' =>
            rw [hg] at h
            simp only [Option.map_some, Option.some.injEq] at h
            subst h
            simp [hnm, ih hr' l' hg]
    exact key _ out.registry hok l hl

/-! ## C22 -/

/-- **C22.**  A successfully compiled protocol has, under each name, its own message of that name,
or else the last one the imports bring; no message is lost or invented, and no name occurs twice. -/
theorem C22_messages {b b' : Builder} {w : World} {fuel : Nat} {text name : String} {dir : Path}
    {path : Option Path} {out : CompileOutput} {p' : Protocol}
    (h : b.compile w fuel text name dir path = (.ok out, b')) (hp : out.file = .protocol p') :
    ∃ p decls ws es seen, parseIdl w text name = .ok (.protocol p, decls, ws) ∧
      Trace w b.importDirs dir path.toList decls es (.finished seen) ∧
      (p'.messages.map Prod.fst).Nodup ∧
      ∀ n m, (n, m) ∈ p'.messages ↔
        lastEntry p.messages n = some m ∨
        (lastEntry p.messages n = none ∧ lastEntry (es.flatMap Event.messages) n = some m) := by
  obtain ⟨file, decls, ws, es, seen, k, h1, h2, _, _, _, _, h7, _⟩ := compile_ok h
  rw [hp] at h7
  cases file with
  | schema s => exact h7.elim
  | named ss => exact h7.elim
  | protocol p =>
    simp only at h7
    obtain ⟨a1, a2⟩ := extendMessages_spec (es.flatMap Event.messages) [] (by simp)
    obtain ⟨b1, b2⟩ := extendMessages_spec p.messages _ a1
    refine ⟨p, decls, ws, es, seen, h1, h2, by rw [h7]; exact b1, fun n m => ?_⟩
    rw [h7, b2, a2]
    simp

omit [CharTables] [FloatTables] [CaseTables] in
/-- `lastEntry` is what its name says. -/
theorem C22_lastEntry_spec (l : List (String × Message)) (n : String) (m : Message) :
    lastEntry l n = some m ↔ ∃ l1 l2, l = l1 ++ (n, m) :: l2 ∧ ∀ x ∈ l2, x.1 ≠ n := by
  unfold lastEntry
  constructor
  · intro h
    simp only [Option.map_eq_some_iff] at h
    obtain ⟨⟨n', m'⟩, h1, h2⟩ := h
    simp only at h2
    subst h2
    obtain ⟨hn, as, bs, he, ha⟩ := List.find?_eq_some_iff_append.mp h1
    have hn' : n' = n := by simpa using hn
    subst hn'
    refine ⟨bs.reverse, as.reverse, ?_, ?_⟩
    · have := congrArg List.reverse he
      simpa using this
    · intro x hx
      have := ha x (by simpa using hx)
      simpa using this
  · rintro ⟨l1, l2, rfl, h⟩
    have : List.find? (fun nm => nm.1 == n) (l1 ++ (n, m) :: l2).reverse = some (n, m) := by
      refine List.find?_eq_some_iff_append.mpr ⟨by simp, l2.reverse, l1.reverse, by simp, ?_⟩
      intro a ha
      have := h a (by simpa using ha)
      simpa using this
    rw [this]; rfl

/-! ## C10 -/

omit [CharTables] [FloatTables] [CaseTables] in
theorem mem_validateSchema (r : Registry) (s : Schema) (x : String) :
    (∃ sp, (x, sp) ∈ r.validateSchema s) ↔ (∃ sp, RefersTo s x sp) ∧ x ∉ r.names := by
  have hk : r.contains x = false ↔ x ∉ r.names := by
    rw [← Registry.find?_isSome_iff]; simp [Registry.contains]
  unfold Registry.validateSchema
  simp only [mem_unresolvedRefs, hk]
  constructor
  · rintro ⟨sp, h1, h2⟩; exact ⟨⟨sp, h1⟩, h2⟩
  · rintro ⟨⟨sp, h1⟩, h2⟩; exact ⟨sp, h1, h2⟩

omit [CharTables] [FloatTables] [CaseTables] in
/-- **C10.**  The reference check fails if and only if some registered type, some message or the
main schema refers to a name that is not registered, and then names exactly these names, each
once. -/
theorem C10_undefined_exactly (file : IdlFile) (r : Registry) :
    ((undefinedNames file r).map Prod.fst).Nodup ∧
    (∀ x, x ∈ (undefinedNames file r).map Prod.fst ↔
      ((∃ kt ∈ r, ∃ sp, RefersTo kt.2 x sp) ∨ FileRefersTo file x) ∧ x ∉ r.names) ∧
    validateAllReferences file r =
      if undefinedNames file r = [] then .ok () else .error (.undefined (undefinedNames file r)) := by
  have hp := undefinedNames_perm file r
  obtain ⟨d1, d2, _⟩ := dedupNames_spec (r.validateReferences ++ fileUnresolved r file) []
  refine ⟨(hp.map Prod.fst).nodup_iff.mpr d1, fun x => ?_, ?_⟩
  · rw [(hp.map Prod.fst).mem_iff, d2]
    simp only [List.not_mem_nil, not_false_eq_true, true_and, List.map_append, List.mem_append]
    have h1 : x ∈ r.validateReferences.map Prod.fst ↔
        (∃ kt ∈ r, ∃ sp, RefersTo kt.2 x sp) ∧ x ∉ r.names := by
      rw [List.mem_map]
      constructor
      · rintro ⟨⟨y, sp⟩, hm, rfl⟩
        obtain ⟨⟨kt, hk, hr⟩, hn⟩ := (C10_registry_reports_exactly r _ _).mp hm
        exact ⟨⟨kt, hk, sp, hr⟩, hn⟩
      · rintro ⟨⟨kt, hk, sp, hr⟩, hn⟩
        exact ⟨(x, sp), (C10_registry_reports_exactly r _ _).mpr ⟨⟨kt, hk, hr⟩, hn⟩, rfl⟩
    have h2 : x ∈ (fileUnresolved r file).map Prod.fst ↔ FileRefersTo file x ∧ x ∉ r.names := by
      have hm : x ∈ (fileUnresolved r file).map Prod.fst ↔ ∃ sp, (x, sp) ∈ fileUnresolved r file := by
        rw [List.mem_map]
        constructor
        · rintro ⟨⟨y, sp⟩, hm, rfl⟩; exact ⟨sp, hm⟩
        · rintro ⟨sp, hm⟩; exact ⟨_, hm, rfl⟩
      rw [hm]
      cases file with
      | schema s =>
        simp only [fileUnresolved]
        rw [mem_validateSchema]
        constructor
        · rintro ⟨⟨sp, h⟩, hn⟩; exact ⟨.schema h, hn⟩
        · rintro ⟨h, hn⟩; cases h with | schema h => exact ⟨⟨_, h⟩, hn⟩
      | named ss =>
        simp only [fileUnresolved, List.mem_flatMap]
        constructor
        · rintro ⟨sp, s, hs, h⟩
          obtain ⟨⟨sp', h⟩, hn⟩ := (mem_validateSchema r s x).mp ⟨sp, h⟩
          exact ⟨.named hs h, hn⟩
        · rintro ⟨h, hn⟩
          cases h with
          | @named _ s _ sp hs h =>
            obtain ⟨sp', h⟩ := (mem_validateSchema r s x).mpr ⟨⟨_, h⟩, hn⟩
            exact ⟨sp', s, hs, h⟩
      | protocol p =>
        simp only [fileUnresolved, List.mem_flatMap, List.mem_append]
        constructor
        · rintro ⟨sp, nm, hnm, (h | ⟨f, hf, h⟩) | h⟩
          · obtain ⟨⟨sp', h⟩, hn⟩ := (mem_validateSchema r _ x).mp ⟨sp, h⟩
            exact ⟨.response hnm h, hn⟩
          · obtain ⟨⟨sp', h⟩, hn⟩ := (mem_validateSchema r _ x).mp ⟨sp, h⟩
            exact ⟨.parameter hnm hf h, hn⟩
          · cases he : nm.2.errors with
            | none => rw [he] at h; cases h
            | some es =>
              rw [he] at h
              obtain ⟨s, hs, h⟩ := List.mem_flatMap.mp h
              obtain ⟨⟨sp', h⟩, hn⟩ := (mem_validateSchema r _ x).mp ⟨sp, h⟩
              exact ⟨.error hnm he hs h, hn⟩
        · rintro ⟨h, hn⟩
          cases h with
          | @response _ nm _ sp hnm h =>
            obtain ⟨sp', h⟩ := (mem_validateSchema r _ x).mpr ⟨⟨_, h⟩, hn⟩
            exact ⟨sp', nm, hnm, .inl (.inl h)⟩
          | @parameter _ nm f _ sp hnm hf h =>
            obtain ⟨sp', h⟩ := (mem_validateSchema r _ x).mpr ⟨⟨_, h⟩, hn⟩
            exact ⟨sp', nm, hnm, .inl (.inr ⟨f, hf, h⟩)⟩
          | @error _ nm es s _ sp hnm he hs h =>
            obtain ⟨sp', h⟩ := (mem_validateSchema r _ x).mpr ⟨⟨_, h⟩, hn⟩
            refine ⟨sp', nm, hnm, .inr ?_⟩
            rw [he]
            exact List.mem_flatMap.mpr ⟨s, hs, h⟩
    rw [h1, h2]
    constructor
    · rintro (⟨a, b⟩ | ⟨a, b⟩)
      · exact ⟨.inl a, b⟩
      · exact ⟨.inr a, b⟩
    · rintro ⟨a | a, b⟩
      · exact .inl ⟨a, b⟩
      · exact .inr ⟨a, b⟩
  · unfold validateAllReferences
    cases h : undefinedNames file r with
    | nil => simp
    | cons a l => simp

/-- **C10, compilation.**  When all imports and declarations of a file go through, the compilation
succeeds if nothing refers to an undefined name, and otherwise fails with the error that lists
the undefined names. -/
theorem C10_compile (b : Builder) {w : World} {fuel : Nat} {text name : String} {dir : Path}
    {path : Option Path} {file : IdlFile} {c : Ctx}
    (h : parseAndResolve w b.importDirs fuel text name dir path Ctx.new = (.ok file, c)) :
    ((∃ out, (b.compile w fuel text name dir path).1 = .ok out) ∧
      ¬ ∃ x, ((∃ kt ∈ c.registry, ∃ sp, RefersTo kt.2 x sp) ∨ FileRefersTo file x) ∧
        x ∉ c.registry.names) ∨
    (∃ xs, (b.compile w fuel text name dir path).1 = .error (.undefined xs) ∧ xs ≠ [] ∧
      (xs.map Prod.fst).Nodup ∧
      ∀ x, x ∈ xs.map Prod.fst ↔
        ((∃ kt ∈ c.registry, ∃ sp, RefersTo kt.2 x sp) ∨ FileRefersTo file x) ∧
          x ∉ c.registry.names) := by
  obtain ⟨h1, h2, h3⟩ := C10_undefined_exactly file c.registry
  unfold Builder.compile
  simp only [h, h3]
  by_cases hu : undefinedNames file c.registry = []
  · left
    rw [if_pos hu]
    refine ⟨⟨_, rfl⟩, ?_⟩
    rintro ⟨x, hx⟩
    have := (h2 x).mpr hx
    rw [hu] at this; cases this
  · right
    rw [if_neg hu]
    exact ⟨_, rfl, hu, h1, h2⟩

end

end Avdl.Props
