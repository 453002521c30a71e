import Verif.Lemmas.BareOutput
import Verif.Lemmas.CompileFacts
import Verif.Lemmas.LayoutText
import Verif.Lemmas.Positions
import Verif.Spec.Backticks
/-!
# Source positions and backticks and the compiler

Positions have no influence on a compilation, except on the positions in errors and the order in
which undefined names are reported.  Backticks around identifiers have no influence at all.
-/

namespace Avdl.BareCompile
open BareParse BareReader BareOutput Spec.Reformat Spec.Lexing Spec.Layout

/-! ## Registry -/

theorem find_bare (r : Registry) (k : String) :
    Registry.find? (bareTable r) k = (Registry.find? r k).map Schema.bare := by
  induction r with
  | nil => rfl
  | cons x r ih =>
    obtain ⟨k', s⟩ := x
    show (if k' = k then _ else Registry.find? (bareTable r) k) =
      Option.map _ (if k' = k then _ else _)
    split
    · rfl
    · exact ih

theorem contains_bare (r : Registry) (k : String) :
    Registry.contains (bareTable r) k = Registry.contains r k := by
  unfold Registry.contains
  rw [find_bare, Option.isSome_map]

theorem schemas_table (r : Registry) :
    Registry.schemas (bareTable r) = (Registry.schemas r).map Schema.bare := by
  unfold Registry.schemas bareTable
  rw [List.map_map, List.map_map]
  rfl

theorem append_bare (r r' : List (String × Schema)) :
    bareTable (r ++ r') = bareTable r ++ bareTable r' := List.map_append

theorem register_bare [CharTables] (r : Registry) (s : Schema) :
    Registry.register (bareTable r) s.bare = (Registry.register r s).map bareTable := by
  cases s with
  | record n ns d fs e al ps =>
    rw [Schema.bare, Registry.register, Registry.register, contains_bare]
    split
    · rfl
    · split
      · rfl
      · show Except.ok _ = Except.ok _
        rw [append_bare]; rfl
  | enum n ns d sy df al ps =>
    rw [Schema.bare, Registry.register, Registry.register, contains_bare]
    split
    · rfl
    · split
      · rfl
      · show Except.ok _ = Except.ok _
        rw [append_bare]; rfl
  | fixed n ns d sz al ps =>
    rw [Schema.bare, Registry.register, Registry.register, contains_bare]
    split
    · rfl
    · split
      · rfl
      · show Except.ok _ = Except.ok _
        rw [append_bare]; rfl
  | _ => rfl

mutual
theorem unresolvedRefs_bare (known : String → Bool) : (s : Schema) →
    unresolvedRefs known s.bare = (unresolvedRefs known s).map bareName
  | .ref n ns _ sp => by
      rw [Schema.bare, unresolvedRefs, unresolvedRefs]
      split <;> rfl
  | .record _ _ _ fs _ _ _ => unresolvedRefsFields_bare known fs
  | .array i _ => unresolvedRefs_bare known i
  | .map i _ => unresolvedRefs_bare known i
  | .union ts _ => unresolvedRefsList_bare known ts
  | .prim _ | .enum .. | .fixed .. | .annotated .. | .logical .. => rfl
theorem unresolvedRefsFields_bare (known : String → Bool) : (fs : List Field) →
    unresolvedRefsFields known (bareFields fs) = (unresolvedRefsFields known fs).map bareName
  | [] => rfl
  | .mk _ s _ _ _ _ _ :: fs => by
      rw [bareFields, unresolvedRefsFields, unresolvedRefsFields, List.map_append,
        unresolvedRefs_bare known s, unresolvedRefsFields_bare known fs]
theorem unresolvedRefsList_bare (known : String → Bool) : (ss : List Schema) →
    unresolvedRefsList known (bareSchemas ss) = (unresolvedRefsList known ss).map bareName
  | [] => rfl
  | s :: ss => by
      rw [bareSchemas, unresolvedRefsList, unresolvedRefsList, List.map_append,
        unresolvedRefs_bare known s, unresolvedRefsList_bare known ss]
end

theorem validateSchema_bare (r : Registry) (s : Schema) :
    Registry.validateSchema (bareTable r) s.bare = (Registry.validateSchema r s).map bareName := by
  unfold Registry.validateSchema
  rw [unresolvedRefs_bare, funext (contains_bare r)]

theorem flatMap_bare {α : Type} {f f' : α → List (String × Option Span)} {g : α → α}
    (h : ∀ a, f' (g a) = (f a).map bareName) (l : List α) :
    (l.map g).flatMap f' = (l.flatMap f).map bareName := by
  induction l with
  | nil => rfl
  | cons a l ih => rw [List.map_cons, List.flatMap_cons, List.flatMap_cons, List.map_append, ih, h]

theorem validateReferences_bare (r : Registry) :
    Registry.validateReferences (bareTable r) = (Registry.validateReferences r).map bareName := by
  unfold Registry.validateReferences
  rw [schemas_table]
  exact flatMap_bare (validateSchema_bare r) _

theorem fileUnresolved_bare (r : Registry) (file : IdlFile) :
    fileUnresolved (bareTable r) file.bare = (fileUnresolved r file).map bareName := by
  cases file with
  | schema s => exact validateSchema_bare r s
  | named ss => exact flatMap_bare (validateSchema_bare r) ss
  | protocol p =>
    refine flatMap_bare (fun nm => ?_) p.messages
    obtain ⟨n, d, ps, req, resp, errs, ow⟩ := nm
    rw [List.map_append, List.map_append]
    refine congr (congrArg _ (congr (congrArg _ (validateSchema_bare r resp)) ?_)) ?_
    · refine flatMap_bare (fun f => ?_) req
      rw [fieldSchema_bare]
      exact validateSchema_bare r _
    · cases errs with
      | none => rfl
      | some es => exact flatMap_bare (validateSchema_bare r) es

theorem dedupNames_fst {l l' : List (String × Option Span)} (h : l.map bareName = l'.map bareName)
    (seen : List String) : (dedupNames seen l).map Prod.fst = (dedupNames seen l').map Prod.fst := by
  induction l generalizing l' seen with
  | nil =>
    cases l' with
    | nil => rfl
    | cons x l' => cases h
  | cons x l ih =>
    cases l' with
    | nil => cases h
    | cons x' l' =>
      rw [List.map_cons, List.map_cons] at h
      injection h with h1 h2
      have e : x.1 = x'.1 := (congrArg Prod.fst h1 : (bareName x).1 = (bareName x').1)
      rw [dedupNames, dedupNames, e]
      split
      · exact ih h2 seen
      · rw [List.map_cons, List.map_cons, e, ih h2]

theorem undefinedNames_same {file file' : IdlFile} {r r' : Registry} (hf : file.bare = file'.bare)
    (hr : bareTable r = bareTable r') :
    ((undefinedNames file r).map Prod.fst).Perm ((undefinedNames file' r').map Prod.fst) := by
  have e : (r.validateReferences ++ fileUnresolved r file).map bareName =
      (r'.validateReferences ++ fileUnresolved r' file').map bareName := by
    rw [List.map_append, List.map_append, ← validateReferences_bare, ← validateReferences_bare,
      ← fileUnresolved_bare, ← fileUnresolved_bare, hf, hr]
  have p1 := (undefinedNames_perm file r).map Prod.fst
  have p2 := (undefinedNames_perm file' r').map Prod.fst
  rw [dedupNames_fst e []] at p1
  exact p1.trans p2.symm

/-! ## Defaults against the registry -/

/-- A resolved schema without source positions. -/
def rmap {α β : Type} (f : α → β) : Resolved α → Resolved β
  | .timeout => .timeout
  | .unresolved => .unresolved
  | .done a => .done (f a)

theorem resolveLoop_bare {α β : Type} {f f' : α → Resolved β} {g : α → α} {k : β → β}
    (h : ∀ a, f' (g a) = rmap k (f a)) (l : List α) :
    resolveLoop f' (l.map g) = rmap (List.map k) (resolveLoop f l) := by
  induction l with
  | nil => rfl
  | cons a l ih =>
    rw [List.map_cons, resolveLoop, resolveLoop, h, ih]
    cases f a with
    | timeout => rfl
    | unresolved => rfl
    | done b => cases resolveLoop f l <;> rfl

theorem resolveField_bare (f : Field) (r : Resolved Schema) :
    resolveField f.bare (rmap Schema.bare r) = rmap Field.bare (resolveField f r) := by
  cases f
  cases r <;> rfl

theorem resolveInner_bare {res res' : String → Option Schema}
    (h : ∀ k, res' k = (res k).map Schema.bare) (n : Nat) (s : Schema) (visited : List String) :
    resolveInner res' n s.bare visited = rmap Schema.bare (resolveInner res n s visited) := by
  induction n generalizing s visited with
  | zero => rfl
  | succ n ih =>
    cases s with
    | ref name ns ps sp =>
      rw [Schema.bare, resolveInner, resolveInner]
      split
      · rfl
      · rw [h]
        cases res (makeFullName name ns) with
        | none => rfl
        | some r => exact ih r visited
    | union ts b =>
      rw [Schema.bare, resolveInner, resolveInner, bareSchemas_map,
        resolveLoop_bare (k := Schema.bare) (fun t => ih t visited)]
      cases resolveLoop (fun t => resolveInner res n t visited) ts with
      | timeout => rfl
      | unresolved => rfl
      | done l => dsimp only [rmap]; rw [Schema.bare, bareSchemas_map]
    | record name ns d fs e al ps =>
      rw [Schema.bare, resolveInner, resolveInner, bareFields_map,
        resolveLoop_bare (k := Field.bare) (f := fun f => resolveField f
          (resolveInner res n f.schema (makeFullName name ns :: visited)))
          (fun f => by rw [fieldSchema_bare, ih, resolveField_bare])]
      cases resolveLoop (fun f => resolveField f
          (resolveInner res n f.schema (makeFullName name ns :: visited))) fs with
      | timeout => rfl
      | unresolved => rfl
      | done l => dsimp only [rmap]; rw [Schema.bare, bareFields_map]
    | array i ps =>
      rw [Schema.bare, resolveInner, resolveInner, ih]
      cases resolveInner res n i visited <;> rfl
    | map i ps =>
      rw [Schema.bare, resolveInner, resolveInner, ih]
      cases resolveInner res n i visited <;> rfl
    | _ => rfl

theorem fieldDefaults_bare {res res' : String → Option Schema}
    (h : ∀ k, res' k = (res k).map Schema.bare) (fuel : Nat) (s : Schema) :
    validateRecordFieldDefaults res' fuel s.bare = validateRecordFieldDefaults res fuel s := by
  cases s with
  | record name ns d fs e al ps =>
    show validateRecordFieldDefaults.go res' fuel (bareFields fs) =
      validateRecordFieldDefaults.go res fuel fs
    rw [bareFields_map]
    induction fs with
    | nil => rfl
    | cons f fs ih =>
      rw [List.map_cons, validateRecordFieldDefaults.go, validateRecordFieldDefaults.go, ih,
        fieldDefault_bare, fieldSchema_bare, fieldName_bare, resolveInner_bare h]
      cases f.default with
      | none => rfl
      | some v =>
        dsimp only
        cases resolveInner res fuel f.schema [] with
        | timeout => rfl
        | unresolved => rfl
        | done r => dsimp only [rmap]; rw [validateDefault_bare]
  | _ => rfl

/-! ## Contexts -/

/-- A warning without source positions. -/
def bareWarning : Warning → Warning
  | .walk w => .walk w.bare
  | .lexer e => .lexer ⟨e.text, 0, 0, ⟨0, 0, ""⟩⟩
  | .outOfPlaceDoc i _ _ _ => .outOfPlaceDoc i 0 0 ⟨0, 0, ""⟩

/-- A report without source positions. -/
def bareReport (r : Report) : Report := ⟨bareWarning r.warning, r.context⟩

theorem sameReport_of_bare {r r' : Report} (h : bareReport r = bareReport r') : SameReport r r' := by
  obtain ⟨w, c⟩ := r
  obtain ⟨w', c'⟩ := r'
  injection h with h1 h2
  dsimp only at h1 h2
  subst h2
  cases w with
  | walk w =>
    cases w' with
    | walk w' =>
      injection h1 with h1
      cases w with
      | nonStandardAlias a s =>
        cases w' with
        | nonStandardAlias a' s' => cases h1; exact .nonStandardAlias
        | annotationsDropped ks s => cases h1
      | annotationsDropped ks s =>
        cases w' with
        | nonStandardAlias a' s' => cases h1
        | annotationsDropped ks' s' => cases h1; exact .annotationsDropped
    | lexer m => cases h1
    | outOfPlaceDoc t => cases h1
  | lexer m =>
    cases w' with
    | walk w' => cases h1
    | lexer m' =>
      obtain ⟨t, l, n, s⟩ := m
      obtain ⟨t', l', n', s'⟩ := m'
      cases h1; exact .lexer
    | outOfPlaceDoc t => cases h1
  | outOfPlaceDoc t =>
    cases w' with
    | walk w' => cases h1
    | lexer m' => cases h1
    | outOfPlaceDoc t => cases h1; exact .outOfPlaceDoc

theorem bare_of_sameReport {r r' : Report} (h : SameReport r r') : bareReport r = bareReport r' := by
  cases h <;> rfl

theorem sameReports_iff {rs rs' : List Report} :
    SameReports rs rs' ↔ rs.map bareReport = rs'.map bareReport := by
  constructor
  · intro h
    induction h with
    | nil => rfl
    | cons h _ ih => rw [List.map_cons, List.map_cons, ih, bare_of_sameReport h]
  · intro h
    induction rs generalizing rs' with
    | nil =>
      cases rs' with
      | nil => exact .nil
      | cons => cases h
    | cons r rs ih =>
      cases rs' with
      | nil => cases h
      | cons r' rs' =>
        rw [List.map_cons, List.map_cons] at h
        injection h with h1 h2
        exact .cons (sameReport_of_bare h1) (ih h2)

theorem SameReports.append {a a' b b' : List Report} (h : SameReports a a') (h' : SameReports b b') :
    SameReports (a ++ b) (a' ++ b') := by
  rw [sameReports_iff] at *
  rw [List.map_append, List.map_append, h, h']

theorem reports_same {ws ws' : List Warning} (h : ws.map bareWarning = ws'.map bareWarning)
    (c : Option String) :
    (ws.map fun x => (⟨x, c⟩ : Report)).map bareReport =
      (ws'.map fun x => (⟨x, c⟩ : Report)).map bareReport := by
  rw [List.map_map, List.map_map]
  have e : (bareReport ∘ fun x => (⟨x, c⟩ : Report)) = (fun x => ⟨x, c⟩) ∘ bareWarning := rfl
  rw [e, ← List.map_map, h, List.map_map]

/-- A context without source positions. -/
def bareCtx (c : Ctx) : Ctx :=
  { c with registry := bareTable c.registry, messages := c.messages.map bareMessage,
           jsonImports := c.jsonImports.map fun x => (x.1, none),
           warnings := c.warnings.map bareReport }

/-- Contexts that differ in source positions only. -/
def SameCtx (c c' : Ctx) : Prop := bareCtx c = bareCtx c'

theorem SameCtx.registry {c c' : Ctx} (h : SameCtx c c') :
    bareTable c.registry = bareTable c'.registry := congrArg Ctx.registry h
theorem SameCtx.imported {c c' : Ctx} (h : SameCtx c c') : c.imported = c'.imported :=
  (congrArg (fun c : Ctx => c.imported) h : (bareCtx c).imported = (bareCtx c').imported)
theorem SameCtx.warnings {c c' : Ctx} (h : SameCtx c c') :
    c.warnings.map bareReport = c'.warnings.map bareReport :=
  congrArg (fun c : Ctx => c.warnings) h
theorem SameCtx.messages {c c' : Ctx} (h : SameCtx c c') :
    c.messages.map bareMessage = c'.messages.map bareMessage :=
  congrArg (fun c : Ctx => c.messages) h
theorem SameCtx.jsonImports {c c' : Ctx} (h : SameCtx c c') :
    c.jsonImports.map (fun x => (x.1, (none : Option Span))) = c'.jsonImports.map fun x => (x.1, none) :=
  congrArg (fun c : Ctx => c.jsonImports) h

theorem sameCtx_mk {c c' : Ctx} (h1 : bareTable c.registry = bareTable c'.registry)
    (h2 : c.imported = c'.imported) (h3 : c.warnings.map bareReport = c'.warnings.map bareReport)
    (h4 : c.messages.map bareMessage = c'.messages.map bareMessage)
    (h5 : c.jsonImports.map (fun x => (x.1, (none : Option Span))) =
      c'.jsonImports.map fun x => (x.1, none)) : SameCtx c c' := by
  unfold SameCtx bareCtx
  rw [h1, h2, h3, h4, h5]

/-- Outcomes that differ in source positions only; results are compared by a relation. -/
inductive SameStep {α : Type} (rel : α → α → Prop) : Outcome α → Outcome α → Prop
  | ok {a a' c c'} : rel a a' → SameCtx c c' → SameStep rel (.ok a, c) (.ok a', c')
  | error {e e' c c'} : SameReason e e' → SameCtx c c' → SameStep rel (.error e, c) (.error e', c')

theorem extendMessages_same {ms ms' new new' : List (String × Message)}
    (h : ms.map bareMessage = ms'.map bareMessage) (hn : new.map bareMessage = new'.map bareMessage) :
    (extendMessages ms new).map bareMessage = (extendMessages ms' new').map bareMessage := by
  unfold extendMessages
  induction new generalizing ms ms' new' with
  | nil =>
    cases new' with
    | nil => exact h
    | cons x l => cases hn
  | cons x new ih =>
    cases new' with
    | nil => cases hn
    | cons x' new' =>
      rw [List.map_cons, List.map_cons] at hn
      injection hn with h1 h2
      rw [List.foldl_cons, List.foldl_cons]
      refine ih ?_ h2
      have e1 : x.1 = x'.1 := (congrArg Prod.fst h1 : (bareMessage x).1 = (bareMessage x').1)
      have e2 : x.2.bare = x'.2.bare := congrArg Prod.snd h1
      rw [← insertMessage_bare, ← insertMessage_bare, h, e1, e2]

section
variable [CharTables]

theorem register_same {r r' : Registry} {s s' : Schema} (hr : bareTable r = bareTable r')
    (hs : s.bare = s'.bare) :
    (Registry.register r s).map bareTable = (Registry.register r' s').map bareTable := by
  rw [← register_bare, ← register_bare, hr, hs]

theorem registerIgnore_same {r r' : Registry} (hr : bareTable r = bareTable r') (s : Schema) :
    bareTable (r.registerIgnore s) = bareTable (r'.registerIgnore s) := by
  have h := register_same hr (rfl : s.bare = s.bare)
  unfold Registry.registerIgnore
  cases h1 : r.register s with
  | error e =>
    cases h2 : r'.register s with
    | error e' => exact hr
    | ok q => rw [h1, h2] at h; cases h
  | ok q =>
    cases h2 : r'.register s with
    | error e' => rw [h1, h2] at h; cases h
    | ok q' =>
      rw [h1, h2] at h
      injection h

theorem flattenAndRegister_same {r r' : Registry} (hr : bareTable r = bareTable r') (s : Schema) :
    bareTable (flattenAndRegister r s) = bareTable (flattenAndRegister r' s) := by
  unfold flattenAndRegister
  generalize (flattenSchema s).1 = l
  induction l generalizing r r' with
  | nil => exact hr
  | cons s l ih =>
    rw [List.foldl_cons, List.foldl_cons]
    exact ih (registerIgnore_same hr s)

theorem importTypes_same (dflt : Option String) (js : List Json) {r r' : Registry}
    (hr : bareTable r = bareTable r') :
    (importTypes dflt js r).map bareTable = (importTypes dflt js r').map bareTable := by
  induction js generalizing r r' with
  | nil => exact congrArg Except.ok hr
  | cons j js ih =>
    rw [importTypes, importTypes]
    cases jsonToSchema dflt j with
    | error e => rfl
    | ok s =>
      have h := ih (flattenAndRegister_same hr s)
      revert h
      cases h1 : importTypes dflt js (flattenAndRegister r s) <;>
        cases h2 : importTypes dflt js (flattenAndRegister r' s) <;> intro h
      · cases h; simp only [h1, h2]
      · cases h
      · cases h
      · simp only [h1, h2]; exact h

omit [CharTables] in
/-- The end of an import: the registry with the imported messages. -/
theorem withMessages_same {r r' : Registry} (hr : bareTable r = bareTable r')
    (y : Except ImportErr (List (String × Message))) :
    Except.map (fun x : Registry × List (String × Message) => (bareTable x.1, x.2))
      (match y with | .error e => .error e | .ok ms => .ok (r, ms)) =
    Except.map (fun x : Registry × List (String × Message) => (bareTable x.1, x.2))
      (match y with | .error e => .error e | .ok ms => .ok (r', ms)) := by
  cases y with
  | error b => rfl
  | ok ms => exact congrArg (fun t => Except.ok (t, ms)) hr

theorem importProtocol_same (j : Json) {r r' : Registry} (hr : bareTable r = bareTable r') :
    (importProtocol j r).map (fun x => (bareTable x.1, x.2)) =
      (importProtocol j r').map fun x => (bareTable x.1, x.2) := by
  unfold importProtocol
  dsimp only
  cases (j.get? "types").bind Json.asArr with
  | none => exact withMessages_same hr _
  | some ts =>
    dsimp only
    have e := importTypes_same ((j.get? "namespace").bind Json.asStr) ts hr
    cases h1 : importTypes ((j.get? "namespace").bind Json.asStr) ts r with
    | error a =>
      cases h2 : importTypes ((j.get? "namespace").bind Json.asStr) ts r' with
      | error a' =>
        rw [h1, h2] at e
        injection e with e
        rw [e]
      | ok a' => rw [h1, h2] at e; cases e
    | ok a =>
      cases h2 : importTypes ((j.get? "namespace").bind Json.asStr) ts r' with
      | error a' => rw [h1, h2] at e; cases e
      | ok a' =>
        rw [h1, h2] at e
        injection e with e
        exact withMessages_same e _

theorem importSchema_same (j : Json) {r r' : Registry} (hr : bareTable r = bareTable r') :
    (importSchema j r).map bareTable = (importSchema j r').map bareTable := by
  unfold importSchema
  cases jsonToSchema none j with
  | error e => rfl
  | ok s => exact congrArg Except.ok (flattenAndRegister_same hr s)

omit [CharTables] in
theorem errorSpan_some (spans : List (String × Span)) {span : Option Span} (h : span.isSome = true)
    (x : String) : ∃ sp, errorSpan spans span x = some sp := by
  obtain ⟨sp, rfl⟩ := Option.isSome_iff_exists.mp h
  unfold errorSpan
  cases (spans.reverse.find? fun y => y.1 == x) with
  | none => exact ⟨_, rfl⟩
  | some y => exact ⟨_, rfl⟩

omit [CharTables] in
/-- Nothing is left out if the declaration has a position. -/
theorem related_all (spans : List (String × Span)) {span : Option Span} (h : span.isSome = true)
    (l : List (String × DefaultReason)) :
    (l.filterMap fun x => (errorSpan spans span x.1).map fun sp => (x.1, x.2, sp)).map
      (fun y => (y.1, y.2.1)) = l := by
  induction l with
  | nil => rfl
  | cons x l ih =>
    obtain ⟨sp, hsp⟩ := errorSpan_some spans h x.1
    rw [List.filterMap_cons_some (b := (x.1, x.2, sp)) (by rw [hsp]; rfl), List.map_cons, ih]

theorem declareType_same (fuel : Nat) {s s' : Schema} {span span' : Option Span}
    (spans spans' : List (String × Span)) (hsp : span.isSome = true) (hsp' : span'.isSome = true)
    {c c' : Ctx} (hs : s.bare = s'.bare) (hc : SameCtx c c') :
    SameStep (fun _ _ => True) (declareType fuel s span spans c)
      (declareType fuel s' span' spans' c') := by
  have h := register_same hc.registry hs
  unfold declareType
  cases h1 : c.registry.register s with
  | error e =>
    cases h2 : c'.registry.register s' with
    | error e' =>
      rw [h1, h2] at h
      injection h with h
      subst h
      exact .error .register hc
    | ok q => rw [h1, h2] at h; cases h
  | ok q =>
    cases h2 : c'.registry.register s' with
    | error e' => rw [h1, h2] at h; cases h
    | ok q' =>
      rw [h1, h2] at h
      injection h with h
      have hc' : SameCtx { c with registry := q } { c' with registry := q' } :=
        sameCtx_mk h hc.imported hc.warnings hc.messages hc.jsonImports
      have hv : validateRecordFieldDefaults q.find? fuel s =
          validateRecordFieldDefaults q'.find? fuel s' := by
        rw [← fieldDefaults_bare (find_bare q), hs, h, fieldDefaults_bare (find_bare q')]
      have hn : s.fullName? = s'.fullName? := by
        rw [← fullName_bare, hs, fullName_bare]
      dsimp only
      rw [hv]
      cases validateRecordFieldDefaults q'.find? fuel s' with
      | none => exact .error .same hc'
      | some l =>
        cases l with
        | nil => exact .ok trivial hc'
        | cons x l =>
          unfold defaultsErr
          rw [hn]
          exact .error (.invalidDefaults (by rw [related_all spans hsp, related_all spans' hsp'])) hc'

end

/-! ## Parsing -/

/-- A token without backticks if it is an identifier or keyword. -/
def plainKey (x : Kind × String) : Kind × String :=
  (x.1, if x.1.isIdent then identifierText x.2 else x.2)

theorem plainKey_same {l l' : List (Kind × List Char)}
    (h : List.Forall₂ Spec.Backticks.SameToken l l') :
    (l.map fun x => plainKey (x.1, String.ofList x.2)) =
      l'.map fun x => plainKey (x.1, String.ofList x.2) := by
  induction h with
  | nil => rfl
  | cons h1 _ ih =>
    rw [List.map_cons, List.map_cons, ih]
    cases h1 with
    | same => rfl
    | @identifier t t' h1 =>
      have e : identifierText (String.ofList t) = identifierText (String.ofList t') := by
        unfold identifierText
        rw [String.toList_ofList, String.toList_ofList]
        exact congrArg String.ofList h1
      show (Kind.ident, identifierText (String.ofList t)) :: _ =
        (Kind.ident, identifierText (String.ofList t')) :: _
      rw [e]

theorem plainKey_bare {x x' : Kind × String} (h : plainKey x = plainKey x') :
    Token.bare ⟨x.1.tokenType, x.2⟩ = Token.bare ⟨x'.1.tokenType, x'.2⟩ := by
  obtain ⟨k, t⟩ := x
  obtain ⟨k', t'⟩ := x'
  have e : k = k' := congrArg Prod.fst h
  subst e
  have e : (if k.isIdent then identifierText t else t) = if k.isIdent then identifierText t' else t' :=
    congrArg Prod.snd h
  cases k with
  | doc =>
    have e : t = t' := e
    rw [e]
  | _ => rfl

theorem parserTokens_same (file : String) {s s' : List LexToken}
    (h : s.map (fun t => plainKey (t.kind, t.text)) = s'.map fun t => plainKey (t.kind, t.text))
    (i : Nat) :
    bares (parserTokens file i s) = bares (parserTokens file i s') := by
  induction s generalizing s' i with
  | nil =>
    cases s' with
    | nil => rfl
    | cons t s' => cases h
  | cons t s ih =>
    cases s' with
    | nil => cases h
    | cons t' s' =>
      rw [List.map_cons, List.map_cons] at h
      injection h with h1 h2
      have e1 : t.kind = t'.kind := congrArg Prod.fst h1
      have e2 : (if t.kind.isIdent then identifierText t.text else t.text) =
          if t'.kind.isIdent then identifierText t'.text else t'.text := congrArg Prod.snd h1
      rw [e1] at e2
      rw [parserTokens, parserTokens, e1]
      split
      · exact ih h2 _
      · rw [bares_cons, bares_cons, ih h2, PTok.bare, PTok.bare, PTok.plain, PTok.plain, PTok.raw,
          PTok.raw]
        dsimp only
        split at e2
        · next hi => rw [if_pos hi, if_pos hi, e2]
        · next hi => rw [if_neg hi, if_neg hi, e2]

/-- A source without positions. -/
def bareSource (s : Source) : Source :=
  { s with ast := s.ast.bare, marks := [], tokens := bareTokens s.tokens,
           lexerErrors := s.lexerErrors.map fun e => ⟨e.text, 0, 0, ⟨0, 0, ""⟩⟩ }

theorem lexErrorsOf_bare (file : String) (source : List Char) (ps : List Piece) :
    ∀ at_, (lexErrorsOf file source at_ ps).map (fun e => (⟨e.text, 0, 0, ⟨0, 0, ""⟩⟩ : LexError)) =
      (lexErrors ps).map fun t => ⟨String.ofList t, 0, 0, ⟨0, 0, ""⟩⟩ := by
  induction ps with
  | nil => intro _; rfl
  | cons p ps ih =>
    intro at_
    obtain ⟨k, t⟩ := p
    unfold lexErrors at ih ⊢
    cases k with
    | none => simp only [lexErrorsOf, List.map_cons, List.filterMap_cons, ih]
    | some k => simp only [lexErrorsOf, List.filterMap_cons, ih]

theorem lexErrors_filter (ps : List Piece) :
    lexErrors ps = (ps.filter fun p => p.kind.isNone).map (·.text) := by
  induction ps with
  | nil => rfl
  | cons p ps ih =>
    obtain ⟨k, t⟩ := p
    unfold lexErrors at ih ⊢
    cases k with
    | none =>
      rw [List.filterMap_cons]
      dsimp only
      rw [ih]
      rfl
    | some k =>
      rw [List.filterMap_cons]
      dsimp only
      rw [ih]
      rfl

theorem parseSource_same {file text text' : String} (h : Spec.Backticks.SameTokens text text') :
    (parseSource file text).map bareSource = (parseSource file text').map bareSource := by
  obtain ⟨ps, ps', h1, h2, h3, h4⟩ := h
  have e1 := lex_iff.mp h1
  have e2 := lex_iff.mp h2
  unfold parseSource
  dsimp only
  rw [e1, e2]
  have hs : (streamOf 0 ps).map (fun t => plainKey (t.kind, t.text)) =
      (streamOf 0 ps').map fun t => plainKey (t.kind, t.text) := by
    have e : ∀ ps, (streamOf 0 ps).map (fun t => plainKey (t.kind, t.text)) =
        (significant ps).map fun x => plainKey (x.1, String.ofList x.2) := by
      intro ps
      have := congrArg (List.map plainKey) (streamOf_significant ps 0)
      rwa [List.map_map, List.map_map] at this
    rw [e, e, plainKey_same h3]
  have hb := parserTokens_same file hs 0
  have hl : (parserTokens file 0 (streamOf 0 ps)).length =
      (parserTokens file 0 (streamOf 0 ps')).length := by
    have := congrArg List.length hb
    rwa [List.length_map, List.length_map] at this
  have hf := pFile_bare ((parserTokens file 0 (streamOf 0 ps)).length + 1)
    (parserTokens file 0 (streamOf 0 ps))
  have hf' := pFile_bare ((parserTokens file 0 (streamOf 0 ps)).length + 1)
    (parserTokens file 0 (streamOf 0 ps'))
  rw [hb, hf'] at hf
  rw [← hl]
  have ht : bareTokens ((streamOf 0 ps).map fun t => ⟨t.kind.tokenType, t.text⟩) =
      bareTokens ((streamOf 0 ps').map fun t => ⟨t.kind.tokenType, t.text⟩) := by
    rw [bareTokens, bareTokens, List.map_map, List.map_map]
    revert hs
    generalize streamOf 0 ps = s
    generalize streamOf 0 ps' = s'
    intro hs
    induction s generalizing s' with
    | nil =>
      cases s' with
      | nil => rfl
      | cons t s' => cases hs
    | cons t s ih =>
      cases s' with
      | nil => cases hs
      | cons t' s' =>
        rw [List.map_cons, List.map_cons] at hs
        injection hs with e1 e2
        rw [List.map_cons, List.map_cons, ih s' e2]
        exact congrArg (· :: _) (plainKey_bare e1)
  rw [Option.map_map, Option.map_map]
  have hx : (lexErrors ps).map (fun t => (⟨String.ofList t, 0, 0, ⟨0, 0, ""⟩⟩ : LexError)) =
      (lexErrors ps').map fun t => ⟨String.ofList t, 0, 0, ⟨0, 0, ""⟩⟩ := by
    rw [lexErrors_filter, lexErrors_filter, h4]
  revert hf
  generalize pFile _ (parserTokens file 0 (streamOf 0 ps)) = x
  generalize pFile _ (parserTokens file 0 (streamOf 0 ps')) = x'
  intro hf
  cases x with
  | none =>
    cases x' with
    | none => rfl
    | some a => cases hf
  | some a =>
    cases x' with
    | none => cases hf
    | some a' =>
      injection hf with hf
      show some _ = some _
      unfold bareSource Function.comp
      dsimp only
      rw [hf, lexErrorsOf_bare, lexErrorsOf_bare, hx, bareTokens, bareTokens, List.map_append,
        List.map_append, show List.map Token.bare _ = List.map Token.bare _ from ht]

section
variable [CharTables] [FloatTables] [CaseTables]

/-- The result of `parseIdl` without source positions. -/
def bareParsed (r : IdlFile × List DeclItem × List Warning) :
    IdlFile × List DeclItem × List Warning := (r.1.bare, r.2.1.map DeclItem.bare, r.2.2.map bareWarning)

/-- An error of the reader without source positions. -/
def bareErr : CompileErr → CompileErr
  | .read name e => .read name e.bare
  | e => e

/-- What reading a file gives, without source positions. -/
def bareRead : Except CompileErr (IdlFile × List DeclItem × List Warning) →
    Except CompileErr (IdlFile × List DeclItem × List Warning)
  | .error e => .error (bareErr e)
  | .ok r => .ok (bareParsed r)

omit [CharTables] [FloatTables] [CaseTables] in
theorem sameReason_of_bare {e e' : CompileErr} (h : bareErr e = bareErr e') : SameReason e e' := by
  by_cases h1 : ∃ n x, e = .read n x
  · obtain ⟨n, x, rfl⟩ := h1
    obtain ⟨x, s⟩ := x
    cases e' with
    | read n' x' =>
      obtain ⟨x', s'⟩ := x'
      cases h
      exact .read
    | _ => cases h
  · have e1 : bareErr e = e := by
      cases e with
      | read n x => exact absurd ⟨n, x, rfl⟩ h1
      | _ => rfl
    rw [e1] at h
    by_cases h2 : ∃ n x, e' = .read n x
    · obtain ⟨n, x, rfl⟩ := h2
      exact absurd ⟨n, x.bare, h⟩ h1
    · have e2 : bareErr e' = e' := by
        cases e' with
        | read n x => exact absurd ⟨n, x, rfl⟩ h2
        | _ => rfl
      rw [e2] at h
      rw [h]
      exact .same

theorem parseIdl_same {w w' : World} (hw : w.parse = parseSource) (hw' : w'.parse = parseSource)
    {text text' : String} (h : Spec.Backticks.SameTokens text text') (name : String) :
    bareRead (parseIdl w text name) = bareRead (parseIdl w' text' name) := by
  have hp := parseSource_same (file := name) h
  unfold parseIdl
  rw [hw, hw']
  cases h1 : parseSource name text with
  | none =>
    cases h2 : parseSource name text' with
    | none => rfl
    | some s' => rw [h1, h2] at hp; cases hp
  | some s =>
    cases h2 : parseSource name text' with
    | none => rw [h1, h2] at hp; cases hp
    | some s' =>
      rw [h1, h2] at hp
      injection hp with hp
      have ht : bareTokens s.tokens = bareTokens s'.tokens :=
        (congrArg Source.tokens hp : (bareSource s).tokens = (bareSource s').tokens)
      have he : ∀ s : Source, (s.lexerErrors.map Warning.lexer).map bareWarning =
          (bareSource s).lexerErrors.map .lexer := by
        intro s
        unfold bareSource
        rw [List.map_map, List.map_map]
        rfl
      have ha : s.ast.bare = s'.ast.bare :=
        (congrArg Source.ast hp : (bareSource s).ast = (bareSource s').ast)
      have hr : bareExcept bareResult (readFile s.tokens s.ast) =
          bareExcept bareResult (readFile s'.tokens s'.ast) := by
        rw [← readFile_bare, ← readFile_bare, ha, ht]
      dsimp only
      cases h3 : readFile s.tokens s.ast with
      | error e =>
        cases h4 : readFile s'.tokens s'.ast with
        | error e' =>
          rw [h3, h4] at hr
          injection hr with hr
          show Except.error (CompileErr.read _ _) = .error (.read _ _)
          rw [hr]
        | ok r' => rw [h3, h4] at hr; cases hr
      | ok r =>
        cases h4 : readFile s'.tokens s'.ast with
        | error e' => rw [h3, h4] at hr; cases hr
        | ok r' =>
          rw [h3, h4] at hr
          injection hr with hr
          have e1 : r.file.bare = r'.file.bare := congrArg ReadResult.file hr
          have e2 : r.decls.map DeclItem.bare = r'.decls.map DeclItem.bare :=
            congrArg ReadResult.decls hr
          have e3 : r.orphans = r'.orphans :=
            (congrArg ReadResult.orphans hr : (bareResult r).orphans = (bareResult r').orphans)
          have e4 : r.warnings.map WalkWarning.bare = r'.warnings.map WalkWarning.bare :=
            congrArg ReadResult.warnings hr
          have e5 : ∀ ws : List WalkWarning,
              (ws.map Warning.walk).map bareWarning = (ws.map WalkWarning.bare).map .walk := by
            intro ws
            rw [List.map_map, List.map_map]
            rfl
          have e6 : ∀ (ms : List Mark) (os : List Nat),
              (os.map (docWarning ms name)).map bareWarning =
                os.map fun i => .outOfPlaceDoc i 0 0 ⟨0, 0, ""⟩ := by
            intro ms os
            rw [List.map_map]
            rfl
          show Except.ok _ = Except.ok _
          unfold bareParsed
          dsimp only
          rw [e1, e2, e3]
          simp only [List.map_append, e5, e4, e6, he, hp]

omit [CharTables] [FloatTables] [CaseTables] in
theorem messages_same {f f' : IdlFile} (h : f.bare = f'.bare) :
    f.messages.map bareMessage = f'.messages.map bareMessage := by
  have e : ∀ f : IdlFile, f.bare.messages = f.messages.map bareMessage := by
    intro f
    cases f <;> rfl
  rw [← e, ← e, h]

omit [CharTables] [FloatTables] [CaseTables] in
theorem _root_.Avdl.Spec.Reformat.SameTokens.requoted {text text' : String}
    (h : Spec.Reformat.SameTokens text text') : Spec.Backticks.SameTokens text text' := by
  obtain ⟨ps, ps', h1, h2, h3, h4⟩ := h
  refine ⟨ps, ps', h1, h2, ?_, h4⟩
  rw [h3]
  exact List.forall₂_same.mpr fun _ _ => .same

omit [CharTables] [FloatTables] [CaseTables] in
theorem _root_.Avdl.Spec.Reformat.SameFile.requoted {json : String → Option Json}
    {t t' : Option String} (h : Spec.Reformat.SameFile json t t') :
    Spec.Backticks.SameFile json t t' := by
  cases h with
  | unreadable => exact .unreadable
  | read h hj => exact .read h.requoted hj

omit [CharTables] [FloatTables] [CaseTables] in
theorem _root_.Avdl.Spec.Reformat.Reformatted.requoted {w w' : World} (h : Reformatted w w') :
    Spec.Backticks.Requoted w w' := ⟨h.parse, h.same, fun p => (h.files p).requoted⟩

variable {w : World} {rd : Path → Option String}

/-- The type declarations have positions. -/
def Positioned (ds : List DeclItem) : Prop :=
  ∀ s span spans, DeclItem.type s span spans ∈ ds → span.isSome = true

theorem parseIdl_positioned (hp : w.parse = parseSource) {text name : String}
    {q : IdlFile × List DeclItem × List Warning} (h : parseIdl w text name = .ok q) :
    Positioned q.2.1 := by
  intro s span spans hm
  obtain ⟨sp, rfl, _⟩ := ((parseIdl_places (J := []) hp (text := text) (name := name)
    (.inl ⟨rfl, rfl⟩) h).1 s span spans hm).1
  rfl

theorem readIdl_positioned (hp : w.parse = parseSource) {p : Path}
    {q : IdlFile × List DeclItem × List Warning} (h : readIdl w p = .ok q) :
    Positioned q.2.1 := by
  unfold readIdl at h
  split at h
  · cases h
  · exact parseIdl_positioned hp h

omit [CharTables] [FloatTables] [CaseTables] in
theorem Positioned.tail {d : DeclItem} {ds : List DeclItem} (h : Positioned (d :: ds)) :
    Positioned ds := fun s span spans hm => h s span spans (List.mem_cons_of_mem _ hm)

/-- The nested calls give the same. -/
def SameNested (n n' : List DeclItem → Path → Ctx → Outcome Unit) : Prop :=
  ∀ ds ds' dir c c', Positioned ds → Positioned ds' →
    ds.map DeclItem.bare = ds'.map DeclItem.bare → SameCtx c c' →
    SameStep (fun _ _ => True) (n ds dir c) (n' ds' dir c')

omit [CharTables] [FloatTables] [CaseTables] in
theorem readJson_same (hf : ∀ p, Spec.Backticks.SameFile w.parseJson (w.read p) (rd p)) (p : Path) :
    readJson w p = readJson { w with read := rd } p := by
  unfold readJson
  have h := hf p
  dsimp only
  generalize w.read p = x at h
  generalize rd p = y at h
  cases h with
  | unreadable => rfl
  | read _ hj => dsimp only; rw [hj]

theorem readIdl_same (hp : w.parse = parseSource)
    (hf : ∀ p, Spec.Backticks.SameFile w.parseJson (w.read p) (rd p)) (p : Path) :
    bareRead (readIdl w p) = bareRead (readIdl { w with read := rd } p) := by
  unfold readIdl
  have h := hf p
  dsimp only
  generalize w.read p = x at h
  generalize rd p = y at h
  cases h with
  | unreadable => rfl
  | read ht _ => exact parseIdl_same hp hp ht p

theorem resolveSingleImport_same (hp : w.parse = parseSource)
    (hf : ∀ p, Spec.Backticks.SameFile w.parseJson (w.read p) (rd p)) (dirs : List Path)
    {n n' : List DeclItem → Path → Ctx → Outcome Unit} (hn : SameNested n n')
    {i i' : ImportEntry} (hi : i.bare = i'.bare) (dir : Path) {c c' : Ctx} (hc : SameCtx c c') :
    SameStep (fun _ _ => True) (resolveSingleImport w dirs n i dir c)
      (resolveSingleImport { w with read := rd } dirs n' i' dir c') := by
  have hk : i.kind = i'.kind :=
    (congrArg ImportEntry.kind hi : (ImportEntry.bare i).kind = (ImportEntry.bare i').kind)
  have hpath : i.path = i'.path :=
    (congrArg ImportEntry.path hi : (ImportEntry.bare i).path = (ImportEntry.bare i').path)
  have hs : ∀ file ds, searchDirs { w with read := rd } file ds = searchDirs w file ds := by
    intro file ds
    induction ds with
    | nil => rfl
    | cons d ds ih => rw [searchDirs, searchDirs, ih]
  have hr : resolveImport { w with read := rd } dirs i'.path dir =
      resolveImport w dirs i'.path dir := by
    unfold resolveImport
    rw [hs]
  unfold resolveSingleImport
  rw [hr, hpath]
  cases resolveImport w dirs i'.path dir with
  | error e => exact .error .importFailed hc
  | ok p =>
    dsimp only
    rw [hc.imported]
    split
    · exact .ok trivial hc
    · have hc1 : SameCtx { c with imported := p :: c'.imported }
          { c' with imported := p :: c'.imported } :=
        sameCtx_mk hc.registry rfl hc.warnings hc.messages hc.jsonImports
      have hj : (c.jsonImports ++ [(p, i.span)]).map (fun x => (x.1, (none : Option Span))) =
          (c'.jsonImports ++ [(p, i'.span)]).map fun x => (x.1, none) := by
        rw [List.map_append, List.map_append, hc.jsonImports]
        rfl
      rw [hk, ← readJson_same hf]
      cases i'.kind with
      | protocol =>
        dsimp only
        cases readJson w p with
        | error e => exact .error .importFailed hc1
        | ok j =>
          dsimp only
          have h := importProtocol_same j hc.registry
          cases h1 : importProtocol j c.registry with
          | error e =>
            cases h2 : importProtocol j c'.registry with
            | error e' =>
              rw [h1, h2] at h
              injection h with h
              rw [h]
              exact .error .importFailed hc1
            | ok q => rw [h1, h2] at h; cases h
          | ok q =>
            cases h2 : importProtocol j c'.registry with
            | error e' => rw [h1, h2] at h; cases h
            | ok q' =>
              rw [h1, h2] at h
              injection h with h
              have e1 : bareTable q.1 = bareTable q'.1 := congrArg Prod.fst h
              have e2 : q.2 = q'.2 := (congrArg Prod.snd h : (bareTable q.1, q.2).2 = _)
              refine .ok trivial (sameCtx_mk e1 rfl hc.warnings ?_ hj)
              exact extendMessages_same hc.messages (by rw [e2])
      | schema =>
        dsimp only
        cases readJson w p with
        | error e => exact .error .importFailed hc1
        | ok j =>
          dsimp only
          have h := importSchema_same j hc.registry
          cases h1 : importSchema j c.registry with
          | error e =>
            cases h2 : importSchema j c'.registry with
            | error e' =>
              rw [h1, h2] at h
              injection h with h
              rw [h]
              exact .error .importFailed hc1
            | ok q => rw [h1, h2] at h; cases h
          | ok q =>
            cases h2 : importSchema j c'.registry with
            | error e' => rw [h1, h2] at h; cases h
            | ok q' =>
              rw [h1, h2] at h
              injection h with h
              exact .ok trivial (sameCtx_mk h rfl hc.warnings hc.messages hj)
      | idl =>
        dsimp only
        have h := readIdl_same hp hf p
        cases h1 : readIdl w p with
        | error e =>
          cases h2 : readIdl { w with read := rd } p with
          | error e' =>
            rw [h1, h2] at h
            injection h with h
            exact .error (sameReason_of_bare h) hc1
          | ok q => rw [h1, h2] at h; cases h
        | ok q =>
          cases h2 : readIdl { w with read := rd } p with
          | error e' => rw [h1, h2] at h; cases h
          | ok q' =>
            rw [h1, h2] at h
            injection h with h
            have e1 : q.1.bare = q'.1.bare := congrArg Prod.fst h
            have e2 : q.2.1.map DeclItem.bare = q'.2.1.map DeclItem.bare :=
              congrArg (fun x => x.2.1) h
            have e3 : q.2.2.map bareWarning = q'.2.2.map bareWarning := congrArg (fun x => x.2.2) h
            refine hn _ _ _ _ _ (readIdl_positioned hp h1) (readIdl_positioned (by exact hp) h2) e2
              (sameCtx_mk hc.registry rfl ?_ ?_ hc.jsonImports)
            · show (c.warnings ++ importReports w p i'.path q.2.2).map bareReport =
                (c'.warnings ++ importReports w p i'.path q'.2.2).map bareReport
              rw [List.map_append, List.map_append, hc.warnings]
              congr 1
              exact reports_same e3 _
            · exact extendMessages_same hc.messages (messages_same e1)

theorem processItems_same (hp : w.parse = parseSource)
    (hf : ∀ p, Spec.Backticks.SameFile w.parseJson (w.read p) (rd p)) (dirs : List Path) (fuel : Nat)
    {n n' : List DeclItem → Path → Ctx → Outcome Unit} (hn : SameNested n n') :
    SameNested (processItems w dirs fuel n) (processItems { w with read := rd } dirs fuel n') := by
  intro ds ds' dir c c' hpos hpos' hd hc
  induction ds generalizing ds' c c' with
  | nil =>
    cases ds' with
    | nil => exact .ok trivial hc
    | cons d ds' => cases hd
  | cons d ds ih =>
    cases ds' with
    | nil => cases hd
    | cons d' ds' =>
      rw [List.map_cons, List.map_cons] at hd
      injection hd with h1 h2
      cases d with
      | import_ i =>
        cases d' with
        | type s' sp' fs' => cases h1
        | import_ i' =>
          injection h1 with h1
          have h := resolveSingleImport_same hp hf dirs hn h1 dir hc
          rw [processItems, processItems]
          generalize resolveSingleImport w dirs n i dir c = x at h
          generalize resolveSingleImport { w with read := rd } dirs n' i' dir c' = y at h
          cases h with
          | ok _ hc => exact ih _ _ _ hpos.tail hpos'.tail h2 hc
          | error e hc => exact .error e hc
      | type s sp fs =>
        cases d' with
        | import_ i' => cases h1
        | type s' sp' fs' =>
          injection h1 with h1
          have h := declareType_same fuel fs fs' (hpos _ _ _ (List.mem_cons_self ..))
            (hpos' _ _ _ (List.mem_cons_self ..)) h1 hc
          rw [processItems, processItems]
          generalize declareType fuel s sp fs c = x at h
          generalize declareType fuel s' sp' fs' c' = y at h
          cases h with
          | ok _ hc => exact ih _ _ _ hpos.tail hpos'.tail h2 hc
          | error e hc => exact .error e hc

theorem processDecls_same (hp : w.parse = parseSource)
    (hf : ∀ p, Spec.Backticks.SameFile w.parseJson (w.read p) (rd p)) (dirs : List Path) (fuel depth : Nat) :
    SameNested (processDecls w dirs fuel depth)
      (processDecls { w with read := rd } dirs fuel depth) := by
  induction depth with
  | zero => exact fun ds ds' dir c c' _ _ _ hc => .error .same hc
  | succ n ih => exact processItems_same hp hf dirs fuel ih

theorem parseAndResolve_same (hp : w.parse = parseSource)
    (hf : ∀ p, Spec.Backticks.SameFile w.parseJson (w.read p) (rd p)) (dirs : List Path) (fuel : Nat)
    {text text' : String} (ht : Spec.Backticks.SameTokens text text') (name : String) (dir : Path)
    (path : Option Path) {c c' : Ctx} (hc : SameCtx c c') :
    SameStep (fun f f' => f.bare = f'.bare)
      (parseAndResolve w dirs fuel text name dir path c)
      (parseAndResolve { w with read := rd } dirs fuel text' name dir path c') := by
  have h : bareRead (parseIdl w text name) =
      bareRead (parseIdl { w with read := rd } text' name) := parseIdl_same hp hp ht name
  unfold parseAndResolve
  cases h1 : parseIdl w text name with
  | error e =>
    cases h2 : parseIdl { w with read := rd } text' name with
    | error e' =>
      rw [h1, h2] at h
      injection h with h
      exact .error (sameReason_of_bare h) hc
    | ok q => rw [h1, h2] at h; cases h
  | ok q =>
    cases h2 : parseIdl { w with read := rd } text' name with
    | error e' => rw [h1, h2] at h; cases h
    | ok q' =>
      rw [h1, h2] at h
      injection h with h
      have e1 : q.1.bare = q'.1.bare := congrArg Prod.fst h
      have e2 : q.2.1.map DeclItem.bare = q'.2.1.map DeclItem.bare :=
        congrArg (fun x => x.2.1) h
      have e3 : q.2.2.map bareWarning = q'.2.2.map bareWarning := congrArg (fun x => x.2.2) h
      dsimp only
      have hc1 : SameCtx { c with warnings := c.warnings ++ q.2.2.map fun x => ⟨x, none⟩,
                                  imported := path.toList ++ c.imported }
          { c' with warnings := c'.warnings ++ q'.2.2.map fun x => ⟨x, none⟩,
                    imported := path.toList ++ c'.imported } :=
        sameCtx_mk hc.registry (by dsimp only; rw [hc.imported])
          (by
            dsimp only
            rw [List.map_append, List.map_append, hc.warnings, reports_same e3]) hc.messages hc.jsonImports
      have hd := processDecls_same hp hf dirs fuel fuel q.2.1 q'.2.1 dir _ _ (parseIdl_positioned hp h1)
        (parseIdl_positioned (by exact hp) h2) e2 hc1
      revert hd
      generalize processDecls w dirs fuel fuel q.2.1 dir _ = x
      generalize processDecls { w with read := rd } dirs fuel fuel q'.2.1 dir _ = y
      intro hd
      cases hd with
      | error e hc => exact .error e hc
      | @ok _ _ c2 c2' _ hc =>
        refine .ok ?_ hc
        generalize q.1 = f at e1
        generalize q'.1 = f' at e1
        cases f with
        | protocol p =>
          cases f' with
          | protocol p' =>
            injection e1 with e1
            obtain ⟨n, ns, d, ps, ty, ms⟩ := p
            obtain ⟨n', ns', d', ps', ty', ms'⟩ := p'
            unfold Protocol.bare at e1
            injection e1 with a1 a2 a3 a4 a5 a6
            dsimp only at a1 a2 a3 a4 a5 a6
            subst a1 a2 a3 a4
            show IdlFile.protocol _ = IdlFile.protocol _
            unfold Protocol.bare
            dsimp only
            rw [← schemas_table, ← schemas_table, hc.registry, extendMessages_same hc.messages a6]
          | schema s => cases e1
          | named ss => cases e1
        | schema s =>
          cases f' with
          | schema s' => exact e1
          | protocol p => cases e1
          | named ss => cases e1
        | named ss =>
          cases f' with
          | named ss' => exact e1
          | protocol p => cases e1
          | schema s => cases e1

/-! ## The builders -/

/-- Outputs that differ in source positions only. -/
structure SameOut (o o' : CompileOutput) : Prop where
  file : o.file.bare = o'.file.bare
  registry : bareTable o.registry = bareTable o'.registry
  warnings : SameReports o.warnings o'.warnings

/-- Compilations that differ in source positions only. -/
inductive SameCompile : Except CompileErr CompileOutput × Builder →
    Except CompileErr CompileOutput × Builder → Prop
  | ok {o o' b b'} : SameOut o o' → SameBuilder b b' → SameCompile (.ok o, b) (.ok o', b')
  | error {e e' b b'} : SameReason e e' → SameBuilder b b' →
      SameCompile (.error e, b) (.error e', b')

theorem compile_same (hp : w.parse = parseSource)
    (hf : ∀ p, Spec.Backticks.SameFile w.parseJson (w.read p) (rd p)) {b b' : Builder} (hb : SameBuilder b b') (fuel : Nat)
    {text text' : String} (ht : Spec.Backticks.SameTokens text text') (name : String) (dir : Path)
    (path : Option Path) :
    SameCompile (b.compile w fuel text name dir path)
      (b'.compile { w with read := rd } fuel text' name dir path) := by
  unfold Builder.compile
  dsimp only
  rw [← hb.1]
  have h := parseAndResolve_same hp hf b.importDirs fuel ht name dir path
    (rfl : SameCtx Ctx.new Ctx.new)
  generalize parseAndResolve w b.importDirs fuel text name dir path Ctx.new = x at h
  generalize parseAndResolve { w with read := rd } b.importDirs fuel text' name dir path Ctx.new = y
    at h
  cases h with
  | error e hc =>
    exact .error e ⟨rfl, sameReports_iff.mpr hc.warnings⟩
  | @ok f f' c c' hfile hc =>
    dsimp only
    have hu := undefinedNames_same hfile hc.registry
    unfold validateAllReferences
    cases h1 : undefinedNames f c.registry with
    | nil =>
      cases h2 : undefinedNames f' c'.registry with
      | nil => exact .ok ⟨hfile, hc.registry, sameReports_iff.mpr hc.warnings⟩ ⟨rfl, .nil⟩
      | cons x l =>
        rw [h1, h2] at hu
        exact absurd hu.length_eq (by simp)
    | cons x l =>
      cases h2 : undefinedNames f' c'.registry with
      | nil =>
        rw [h1, h2] at hu
        exact absurd hu.length_eq (by simp)
      | cons x' l' =>
        rw [h1, h2] at hu
        exact .error (.undefined hu) ⟨rfl, sameReports_iff.mpr hc.warnings⟩

theorem compileFile_same (hp : w.parse = parseSource)
    (hf : ∀ p, Spec.Backticks.SameFile w.parseJson (w.read p) (rd p)) {b b' : Builder} (hb : SameBuilder b b') (fuel : Nat) (path : Path) :
    SameCompile (b.compileFile w fuel path) (b'.compileFile { w with read := rd } fuel path) := by
  unfold Builder.compileFile
  have h := hf path
  dsimp only
  generalize w.read path = x at h
  generalize rd path = y at h
  cases h with
  | unreadable => exact .error .same hb
  | read ht _ => exact compile_same hp hf hb fuel ht _ _ _

theorem compileStr_same (hp : w.parse = parseSource)
    (hf : ∀ p, Spec.Backticks.SameFile w.parseJson (w.read p) (rd p)) {b b' : Builder} (hb : SameBuilder b b') (fuel : Nat)
    {text text' : String} (ht : Spec.Backticks.SameTokens text text') (name : String) :
    SameCompile (b.compileStr w fuel text name)
      (b'.compileStr { w with read := rd } fuel text' name) := by
  have h : ∀ x : Option Path, SameCompile
      (match x with | none => (.error .noCwd, b) | some dir => b.compile w fuel text name dir none)
      (match x with
        | none => (.error .noCwd, b')
        | some dir => b'.compile { w with read := rd } fuel text' name dir none) := by
    intro x
    cases x with
    | none => exact .error .same hb
    | some d => exact compile_same hp hf hb fuel ht _ _ _
  exact h w.cwd

omit [CharTables] [FloatTables] [CaseTables] in
theorem outputJson_same (fuel : Nat) {o o' : CompileOutput} (h : SameOut o o') :
    outputJson fuel o = outputJson fuel o' := by
  obtain ⟨f, r, ws⟩ := o
  obtain ⟨f', r', ws'⟩ := o'
  obtain ⟨h1, h2, h3⟩ := h
  dsimp only at h1 h2
  have hl : bareTable (buildLookup r.schemas none) = bareTable (buildLookup r'.schemas none) := by
    rw [← buildLookup_bare, ← buildLookup_bare, ← schemas_table, ← schemas_table, h2]
  cases f with
  | protocol p =>
    cases f' with
    | protocol p' =>
      injection h1 with h1
      show protocolToJson fuel p = protocolToJson fuel p'
      rw [← protocolToJson_bare, h1, protocolToJson_bare]
    | schema s => cases h1
    | named ss => cases h1
  | schema s =>
    cases f' with
    | schema s' =>
      injection h1 with h1
      unfold outputJson
      dsimp only
      rw [← schemaToJson_bare, hl, h1, schemaToJson_bare]
    | protocol p => cases h1
    | named ss => cases h1
  | named ss =>
    cases f' with
    | named ss' => rfl
    | protocol p => cases h1
    | schema s => cases h1

omit [CharTables] [FloatTables] [CaseTables] in
theorem convertImpl_same (fuel : Nat) {r r' : Except CompileErr CompileOutput × Builder}
    (h : SameCompile r r') : SameOutcome SameDocument (convertImpl fuel r) (convertImpl fuel r') := by
  cases h with
  | error e hb => exact .error e hb
  | @ok o o' b b' h hb =>
    have hj := outputJson_same fuel h
    obtain ⟨f, r, ws⟩ := o
    obtain ⟨f', r', ws'⟩ := o'
    obtain ⟨h1, h2, h3⟩ := h
    dsimp only at h1 h3
    unfold convertImpl
    dsimp only
    cases f with
    | named ss =>
      cases f' with
      | named ss' => exact .error .same ⟨hb.1, h3⟩
      | protocol p => cases h1
      | schema s => cases h1
    | protocol p =>
      cases f' with
      | protocol p' =>
        dsimp only
        rw [hj]
        cases outputJson fuel ⟨.protocol p', r', ws'⟩ with
        | none => exact .error .same hb
        | some j => exact .ok ⟨rfl, h3⟩ hb
      | schema s => cases h1
      | named ss => cases h1
    | schema s =>
      cases f' with
      | schema s' =>
        dsimp only
        rw [hj]
        cases outputJson fuel ⟨.schema s', r', ws'⟩ with
        | none => exact .error .same hb
        | some j => exact .ok ⟨rfl, h3⟩ hb
      | protocol p => cases h1
      | named ss => cases h1

omit [CharTables] [FloatTables] [CaseTables] in
theorem extractFrom_same (fuel : Nat) {r r' : Except CompileErr CompileOutput × Builder}
    (h : SameCompile r r') : SameOutcome SameSchemata (extractFrom fuel r) (extractFrom fuel r') := by
  cases h with
  | error e hb => exact .error e hb
  | @ok o o' b b' h hb =>
    unfold extractFrom extractImpl
    dsimp only
    have e : extractSchemas fuel o.registry.schemas = extractSchemas fuel o'.registry.schemas := by
      rw [← extractSchemas_bare, ← schemas_table, h.registry, schemas_table, extractSchemas_bare]
    rw [e]
    cases extractSchemas fuel o'.registry.schemas with
    | none => exact .error .same hb
    | some ss => exact .ok ⟨rfl, h.warnings⟩ hb

end

end Avdl.BareCompile
