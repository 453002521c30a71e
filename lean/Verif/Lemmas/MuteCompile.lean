import Verif.Lemmas.MuteOutput
import Verif.Lemmas.CompileFacts
import Verif.Lemmas.LayoutText
import Verif.Lemmas.Repeat
import Verif.Lemmas.Positions
import Verif.Spec.Redocument
/-!
# Documentation and the compiler

Positions and documentation have no influence on a compilation, except on the positions in errors,
the order in which undefined names are reported, the warnings about doc comments, and the `doc`
attributes of the output.
-/

namespace Avdl.MuteCompile
open MuteParse MuteReader Blank MuteOutput Spec.Redocument Spec.Lexing Spec.Layout Repeat
open Spec.Reformat (SameReason SameReport)

/-! ## Registry -/

theorem find_blank (r : Registry) (k : String) :
    Registry.find? (blankTable r) k = (Registry.find? r k).map Schema.blank := by
  induction r with
  | nil => rfl
  | cons x r ih =>
    obtain ⟨k', s⟩ := x
    show (if k' = k then _ else Registry.find? (blankTable r) k) =
      Option.map _ (if k' = k then _ else _)
    split
    · rfl
    · exact ih

theorem contains_blank (r : Registry) (k : String) :
    Registry.contains (blankTable r) k = Registry.contains r k := by
  unfold Registry.contains
  rw [find_blank, Option.isSome_map]

theorem schemas_table (r : Registry) :
    Registry.schemas (blankTable r) = (Registry.schemas r).map Schema.blank := by
  unfold Registry.schemas blankTable
  rw [List.map_map, List.map_map]
  rfl

theorem append_blank (r r' : List (String × Schema)) :
    blankTable (r ++ r') = blankTable r ++ blankTable r' := List.map_append

theorem register_blank [CharTables] (r : Registry) (s : Schema) :
    Registry.register (blankTable r) s.blank = (Registry.register r s).map blankTable := by
  cases s with
  | record n ns d fs e al ps =>
    rw [Schema.blank, Registry.register, Registry.register, contains_blank]
    split
    · rfl
    · split
      · rfl
      · show Except.ok _ = Except.ok _
        rw [append_blank]; rfl
  | enum n ns d sy df al ps =>
    rw [Schema.blank, Registry.register, Registry.register, contains_blank]
    split
    · rfl
    · split
      · rfl
      · show Except.ok _ = Except.ok _
        rw [append_blank]; rfl
  | fixed n ns d sz al ps =>
    rw [Schema.blank, Registry.register, Registry.register, contains_blank]
    split
    · rfl
    · split
      · rfl
      · show Except.ok _ = Except.ok _
        rw [append_blank]; rfl
  | _ => rfl

mutual
theorem unresolvedRefs_blank (known : String → Bool) : (s : Schema) →
    unresolvedRefs known s.blank = (unresolvedRefs known s).map muteName
  | .ref n ns _ sp => by
      rw [Schema.blank, unresolvedRefs, unresolvedRefs]
      split <;> rfl
  | .record _ _ _ fs _ _ _ => unresolvedRefsFields_blank known fs
  | .array i _ => unresolvedRefs_blank known i
  | .map i _ => unresolvedRefs_blank known i
  | .union ts _ => unresolvedRefsList_blank known ts
  | .prim _ | .enum .. | .fixed .. | .annotated .. | .logical .. => rfl
theorem unresolvedRefsFields_blank (known : String → Bool) : (fs : List Field) →
    unresolvedRefsFields known (blankFields fs) = (unresolvedRefsFields known fs).map muteName
  | [] => rfl
  | .mk _ s _ _ _ _ _ :: fs => by
      rw [blankFields, unresolvedRefsFields, unresolvedRefsFields, List.map_append,
        unresolvedRefs_blank known s, unresolvedRefsFields_blank known fs]
theorem unresolvedRefsList_blank (known : String → Bool) : (ss : List Schema) →
    unresolvedRefsList known (blankSchemas ss) = (unresolvedRefsList known ss).map muteName
  | [] => rfl
  | s :: ss => by
      rw [blankSchemas, unresolvedRefsList, unresolvedRefsList, List.map_append,
        unresolvedRefs_blank known s, unresolvedRefsList_blank known ss]
end

theorem validateSchema_blank (r : Registry) (s : Schema) :
    Registry.validateSchema (blankTable r) s.blank = (Registry.validateSchema r s).map muteName := by
  unfold Registry.validateSchema
  rw [unresolvedRefs_blank, funext (contains_blank r)]

theorem flatMap_blank {α : Type} {f f' : α → List (String × Option Span)} {g : α → α}
    (h : ∀ a, f' (g a) = (f a).map muteName) (l : List α) :
    (l.map g).flatMap f' = (l.flatMap f).map muteName := by
  induction l with
  | nil => rfl
  | cons a l ih => rw [List.map_cons, List.flatMap_cons, List.flatMap_cons, List.map_append, ih, h]

theorem validateReferences_blank (r : Registry) :
    Registry.validateReferences (blankTable r) = (Registry.validateReferences r).map muteName := by
  unfold Registry.validateReferences
  rw [schemas_table]
  exact flatMap_blank (validateSchema_blank r) _

theorem fileUnresolved_blank (r : Registry) (file : IdlFile) :
    fileUnresolved (blankTable r) file.blank = (fileUnresolved r file).map muteName := by
  cases file with
  | schema s => exact validateSchema_blank r s
  | named ss => exact flatMap_blank (validateSchema_blank r) ss
  | protocol p =>
    refine flatMap_blank (fun nm => ?_) p.messages
    obtain ⟨n, d, ps, req, resp, errs, ow⟩ := nm
    rw [List.map_append, List.map_append]
    refine congr (congrArg _ (congr (congrArg _ (validateSchema_blank r resp)) ?_)) ?_
    · refine flatMap_blank (fun f => ?_) req
      rw [fieldSchema_blank]
      exact validateSchema_blank r _
    · cases errs with
      | none => rfl
      | some es => exact flatMap_blank (validateSchema_blank r) es

theorem dedupNames_fst {l l' : List (String × Option Span)} (h : l.map muteName = l'.map muteName)
    (seen : List String) : (dedupNames seen l).map Prod.fst = (dedupNames seen l').map Prod.fst := by
  induction l generalizing l' seen with
  | nil =>
    cases l' with
    | nil => rfl
    | cons x l' => cases h
  | cons x l ih =>
    cases l' with
    | nil => cases h
    | cons x' l' =>
      rw [List.map_cons, List.map_cons] at h
      injection h with h1 h2
      have e : x.1 = x'.1 := (congrArg Prod.fst h1 : (muteName x).1 = (muteName x').1)
      rw [dedupNames, dedupNames, e]
      split
      · exact ih h2 seen
      · rw [List.map_cons, List.map_cons, e, ih h2]

theorem undefinedNames_same {file file' : IdlFile} {r r' : Registry} (hf : file.blank = file'.blank)
    (hr : blankTable r = blankTable r') :
    ((undefinedNames file r).map Prod.fst).Perm ((undefinedNames file' r').map Prod.fst) := by
  have e : (r.validateReferences ++ fileUnresolved r file).map muteName =
      (r'.validateReferences ++ fileUnresolved r' file').map muteName := by
    rw [List.map_append, List.map_append, ← validateReferences_blank, ← validateReferences_blank,
      ← fileUnresolved_blank, ← fileUnresolved_blank, hf, hr]
  have p1 := (undefinedNames_perm file r).map Prod.fst
  have p2 := (undefinedNames_perm file' r').map Prod.fst
  rw [dedupNames_fst e []] at p1
  exact p1.trans p2.symm

/-! ## Defaults against the registry -/

/-- A resolved schema without positions, documentation and marks of optional types. -/
def rmap {α β : Type} (f : α → β) : Resolved α → Resolved β
  | .timeout => .timeout
  | .unresolved => .unresolved
  | .done a => .done (f a)

theorem resolveLoop_blank {α β : Type} {f f' : α → Resolved β} {g : α → α} {k : β → β}
    (h : ∀ a, f' (g a) = rmap k (f a)) (l : List α) :
    resolveLoop f' (l.map g) = rmap (List.map k) (resolveLoop f l) := by
  induction l with
  | nil => rfl
  | cons a l ih =>
    rw [List.map_cons, resolveLoop, resolveLoop, h, ih]
    cases f a with
    | timeout => rfl
    | unresolved => rfl
    | done b => cases resolveLoop f l <;> rfl

theorem resolveField_blank (f : Field) (r : Resolved Schema) :
    resolveField f.blank (rmap Schema.blank r) = rmap Field.blank (resolveField f r) := by
  cases f
  cases r <;> rfl

theorem resolveInner_blank {res res' : String → Option Schema}
    (h : ∀ k, res' k = (res k).map Schema.blank) (n : Nat) (s : Schema) (visited : List String) :
    resolveInner res' n s.blank visited = rmap Schema.blank (resolveInner res n s visited) := by
  induction n generalizing s visited with
  | zero => rfl
  | succ n ih =>
    cases s with
    | ref name ns ps sp =>
      rw [Schema.blank, resolveInner, resolveInner]
      split
      · rfl
      · rw [h]
        cases res (makeFullName name ns) with
        | none => rfl
        | some r => exact ih r visited
    | union ts b =>
      rw [Schema.blank, resolveInner, resolveInner, blankSchemas_map,
        resolveLoop_blank (k := Schema.blank) (fun t => ih t visited)]
      cases resolveLoop (fun t => resolveInner res n t visited) ts with
      | timeout => rfl
      | unresolved => rfl
      | done l => dsimp only [rmap]; rw [Schema.blank, blankSchemas_map]
    | record name ns d fs e al ps =>
      rw [Schema.blank, resolveInner, resolveInner, blankFields_map,
        resolveLoop_blank (k := Field.blank) (f := fun f => resolveField f
          (resolveInner res n f.schema (makeFullName name ns :: visited)))
          (fun f => by rw [fieldSchema_blank, ih, resolveField_blank])]
      cases resolveLoop (fun f => resolveField f
          (resolveInner res n f.schema (makeFullName name ns :: visited))) fs with
      | timeout => rfl
      | unresolved => rfl
      | done l => dsimp only [rmap]; rw [Schema.blank, blankFields_map]
    | array i ps =>
      rw [Schema.blank, resolveInner, resolveInner, ih]
      cases resolveInner res n i visited <;> rfl
    | map i ps =>
      rw [Schema.blank, resolveInner, resolveInner, ih]
      cases resolveInner res n i visited <;> rfl
    | _ => rfl

theorem fieldDefaults_blank {res res' : String → Option Schema}
    (h : ∀ k, res' k = (res k).map Schema.blank) (fuel : Nat) (s : Schema) :
    validateRecordFieldDefaults res' fuel s.blank = validateRecordFieldDefaults res fuel s := by
  cases s with
  | record name ns d fs e al ps =>
    show validateRecordFieldDefaults.go res' fuel (blankFields fs) =
      validateRecordFieldDefaults.go res fuel fs
    rw [blankFields_map]
    induction fs with
    | nil => rfl
    | cons f fs ih =>
      rw [List.map_cons, validateRecordFieldDefaults.go, validateRecordFieldDefaults.go, ih,
        fieldDefault_blank, fieldSchema_blank, fieldName_blank, resolveInner_blank h]
      cases f.default with
      | none => rfl
      | some v =>
        dsimp only
        cases resolveInner res fuel f.schema [] with
        | timeout => rfl
        | unresolved => rfl
        | done r => dsimp only [rmap]; rw [validateDefault_blank]
  | _ => rfl

/-! ## Contexts -/

/-- A warning without positions, documentation and marks of optional types. -/
def muteWarning : Warning → Warning
  | .walk w => .walk w.mute
  | .lexer e => .lexer ⟨e.text, 0, 0, ⟨0, 0, ""⟩⟩
  | .outOfPlaceDoc i _ _ _ => .outOfPlaceDoc i 0 0 ⟨0, 0, ""⟩

/-- A report without positions, documentation and marks of optional types. -/
def muteReport (r : Report) : Report := ⟨muteWarning r.warning, r.context⟩

theorem sameReport_of_mute {r r' : Report} (h : muteReport r = muteReport r') : SameReport r r' := by
  obtain ⟨w, c⟩ := r
  obtain ⟨w', c'⟩ := r'
  injection h with h1 h2
  dsimp only at h1 h2
  subst h2
  cases w with
  | walk w =>
    cases w' with
    | walk w' =>
      injection h1 with h1
      cases w with
      | nonStandardAlias a s =>
        cases w' with
        | nonStandardAlias a' s' => cases h1; exact .nonStandardAlias
        | annotationsDropped ks s => cases h1
      | annotationsDropped ks s =>
        cases w' with
        | nonStandardAlias a' s' => cases h1
        | annotationsDropped ks' s' => cases h1; exact .annotationsDropped
    | lexer m => cases h1
    | outOfPlaceDoc t => cases h1
  | lexer m =>
    cases w' with
    | walk w' => cases h1
    | lexer m' =>
      obtain ⟨t, l, n, s⟩ := m
      obtain ⟨t', l', n', s'⟩ := m'
      cases h1; exact .lexer
    | outOfPlaceDoc t => cases h1
  | outOfPlaceDoc t =>
    cases w' with
    | walk w' => cases h1
    | lexer m' => cases h1
    | outOfPlaceDoc t => cases h1; exact .outOfPlaceDoc

theorem mute_of_sameReport {r r' : Report} (h : SameReport r r') : muteReport r = muteReport r' := by
  cases h <;> rfl

theorem reformatReports_iff {rs rs' : List Report} :
    Spec.Reformat.SameReports rs rs' ↔ rs.map muteReport = rs'.map muteReport := by
  constructor
  · intro h
    induction h with
    | nil => rfl
    | cons h _ ih => rw [List.map_cons, List.map_cons, ih, mute_of_sameReport h]
  · intro h
    induction rs generalizing rs' with
    | nil =>
      cases rs' with
      | nil => exact .nil
      | cons => cases h
    | cons r rs ih =>
      cases rs' with
      | nil => cases h
      | cons r' rs' =>
        rw [List.map_cons, List.map_cons] at h
        injection h with h1 h2
        exact .cons (sameReport_of_mute h1) (ih h2)

/-- A warning about a doc comment that documents nothing. -/
def docsOnly : Warning → Bool
  | .outOfPlaceDoc .. => true
  | _ => false

/-- The warnings that are not about documentation, without positions. -/
def muteWarnings (ws : List Warning) : List Warning := (ws.filter fun x => !docsOnly x).map muteWarning

/-- The reports that are not about documentation, without positions. -/
def muteReports (rs : List Report) : List Report := (rs.filter fun r => !aboutDocs r).map muteReport

theorem muteWarnings_append (ws ws' : List Warning) :
    muteWarnings (ws ++ ws') = muteWarnings ws ++ muteWarnings ws' := by
  unfold muteWarnings
  rw [List.filter_append, List.map_append]

theorem muteReports_append (rs rs' : List Report) :
    muteReports (rs ++ rs') = muteReports rs ++ muteReports rs' := by
  unfold muteReports
  rw [List.filter_append, List.map_append]

theorem sameReports_iff {rs rs' : List Report} :
    SameReports rs rs' ↔ muteReports rs = muteReports rs' := reformatReports_iff

theorem sameReports_append {a a' b b' : List Report} (h : SameReports a a') (h' : SameReports b b') :
    SameReports (a ++ b) (a' ++ b') := by
  rw [sameReports_iff] at *
  rw [muteReports_append, muteReports_append, h, h']

theorem muteReports_map (ws : List Warning) (c : Option String) :
    muteReports (ws.map fun x => (⟨x, c⟩ : Report)) = (muteWarnings ws).map fun x => ⟨x, c⟩ := by
  unfold muteReports muteWarnings
  rw [List.filter_map, List.map_map, List.map_map]
  rfl

theorem reports_same {ws ws' : List Warning} (h : muteWarnings ws = muteWarnings ws')
    (c : Option String) :
    muteReports (ws.map fun x => (⟨x, c⟩ : Report)) =
      muteReports (ws'.map fun x => (⟨x, c⟩ : Report)) := by
  rw [muteReports_map, muteReports_map, h]

/-- A context without positions, documentation and marks of optional types. -/
def blankCtx (c : Ctx) : Ctx :=
  { c with registry := blankTable c.registry, messages := c.messages.map blankMessage,
           jsonImports := c.jsonImports.map fun x => (x.1, none),
           warnings := muteReports c.warnings }

/-- Contexts that differ in positions and documentation only. -/
def SameCtx (c c' : Ctx) : Prop := blankCtx c = blankCtx c'

theorem SameCtx.registry {c c' : Ctx} (h : SameCtx c c') :
    blankTable c.registry = blankTable c'.registry := congrArg Ctx.registry h
theorem SameCtx.imported {c c' : Ctx} (h : SameCtx c c') : c.imported = c'.imported :=
  (congrArg (fun c : Ctx => c.imported) h : (blankCtx c).imported = (blankCtx c').imported)
theorem SameCtx.warnings {c c' : Ctx} (h : SameCtx c c') :
    muteReports c.warnings = muteReports c'.warnings :=
  congrArg (fun c : Ctx => c.warnings) h
theorem SameCtx.messages {c c' : Ctx} (h : SameCtx c c') :
    c.messages.map blankMessage = c'.messages.map blankMessage :=
  congrArg (fun c : Ctx => c.messages) h
theorem SameCtx.jsonImports {c c' : Ctx} (h : SameCtx c c') :
    c.jsonImports.map (fun x => (x.1, (none : Option Span))) = c'.jsonImports.map fun x => (x.1, none) :=
  congrArg (fun c : Ctx => c.jsonImports) h

theorem sameCtx_mk {c c' : Ctx} (h1 : blankTable c.registry = blankTable c'.registry)
    (h2 : c.imported = c'.imported) (h3 : muteReports c.warnings = muteReports c'.warnings)
    (h4 : c.messages.map blankMessage = c'.messages.map blankMessage)
    (h5 : c.jsonImports.map (fun x => (x.1, (none : Option Span))) =
      c'.jsonImports.map fun x => (x.1, none)) : SameCtx c c' := by
  unfold SameCtx blankCtx
  rw [h1, h2, h3, h4, h5]

/-- Outcomes that differ in positions and documentation only; results are compared by a relation. -/
inductive SameStep {α : Type} (rel : α → α → Prop) : Outcome α → Outcome α → Prop
  | ok {a a' c c'} : rel a a' → SameCtx c c' → SameStep rel (.ok a, c) (.ok a', c')
  | error {e e' c c'} : SameReason e e' → SameCtx c c' → SameStep rel (.error e, c) (.error e', c')

theorem extendMessages_same {ms ms' new new' : List (String × Message)}
    (h : ms.map blankMessage = ms'.map blankMessage) (hn : new.map blankMessage = new'.map blankMessage) :
    (extendMessages ms new).map blankMessage = (extendMessages ms' new').map blankMessage := by
  unfold extendMessages
  induction new generalizing ms ms' new' with
  | nil =>
    cases new' with
    | nil => exact h
    | cons x l => cases hn
  | cons x new ih =>
    cases new' with
    | nil => cases hn
    | cons x' new' =>
      rw [List.map_cons, List.map_cons] at hn
      injection hn with h1 h2
      rw [List.foldl_cons, List.foldl_cons]
      refine ih ?_ h2
      have e1 : x.1 = x'.1 := (congrArg Prod.fst h1 : (blankMessage x).1 = (blankMessage x').1)
      have e2 : x.2.blank = x'.2.blank := congrArg Prod.snd h1
      rw [← insertMessage_blank, ← insertMessage_blank, h, e1, e2]

section
variable [CharTables]

theorem register_same {r r' : Registry} {s s' : Schema} (hr : blankTable r = blankTable r')
    (hs : s.blank = s'.blank) :
    (Registry.register r s).map blankTable = (Registry.register r' s').map blankTable := by
  rw [← register_blank, ← register_blank, hr, hs]

theorem registerIgnore_same {r r' : Registry} (hr : blankTable r = blankTable r') (s : Schema) :
    blankTable (r.registerIgnore s) = blankTable (r'.registerIgnore s) := by
  have h := register_same hr (rfl : s.blank = s.blank)
  unfold Registry.registerIgnore
  cases h1 : r.register s with
  | error e =>
    cases h2 : r'.register s with
    | error e' => exact hr
    | ok q => rw [h1, h2] at h; cases h
  | ok q =>
    cases h2 : r'.register s with
    | error e' => rw [h1, h2] at h; cases h
    | ok q' =>
      rw [h1, h2] at h
      injection h

theorem flattenAndRegister_same {r r' : Registry} (hr : blankTable r = blankTable r') (s : Schema) :
    blankTable (flattenAndRegister r s) = blankTable (flattenAndRegister r' s) := by
  unfold flattenAndRegister
  generalize (flattenSchema s).1 = l
  induction l generalizing r r' with
  | nil => exact hr
  | cons s l ih =>
    rw [List.foldl_cons, List.foldl_cons]
    exact ih (registerIgnore_same hr s)

theorem importTypes_same (dflt : Option String) (js : List Json) {r r' : Registry}
    (hr : blankTable r = blankTable r') :
    (importTypes dflt js r).map blankTable = (importTypes dflt js r').map blankTable := by
  induction js generalizing r r' with
  | nil => exact congrArg Except.ok hr
  | cons j js ih =>
    rw [importTypes, importTypes]
    cases jsonToSchema dflt j with
    | error e => rfl
    | ok s =>
      have h := ih (flattenAndRegister_same hr s)
      revert h
      cases h1 : importTypes dflt js (flattenAndRegister r s) <;>
        cases h2 : importTypes dflt js (flattenAndRegister r' s) <;> intro h
      · cases h; simp only [h1, h2]
      · cases h
      · cases h
      · simp only [h1, h2]; exact h

omit [CharTables] in
/-- The end of an import: the registry with the imported messages. -/
theorem withMessages_same {r r' : Registry} (hr : blankTable r = blankTable r')
    (y : Except ImportErr (List (String × Message))) :
    Except.map (fun x : Registry × List (String × Message) => (blankTable x.1, x.2))
      (match y with | .error e => .error e | .ok ms => .ok (r, ms)) =
    Except.map (fun x : Registry × List (String × Message) => (blankTable x.1, x.2))
      (match y with | .error e => .error e | .ok ms => .ok (r', ms)) := by
  cases y with
  | error b => rfl
  | ok ms => exact congrArg (fun t => Except.ok (t, ms)) hr

theorem importProtocol_same (j : Json) {r r' : Registry} (hr : blankTable r = blankTable r') :
    (importProtocol j r).map (fun x => (blankTable x.1, x.2)) =
      (importProtocol j r').map fun x => (blankTable x.1, x.2) := by
  unfold importProtocol
  dsimp only
  cases (j.get? "types").bind Json.asArr with
  | none => exact withMessages_same hr _
  | some ts =>
    dsimp only
    have e := importTypes_same ((j.get? "namespace").bind Json.asStr) ts hr
    cases h1 : importTypes ((j.get? "namespace").bind Json.asStr) ts r with
    | error a =>
      cases h2 : importTypes ((j.get? "namespace").bind Json.asStr) ts r' with
      | error a' =>
        rw [h1, h2] at e
        injection e with e
        rw [e]
      | ok a' => rw [h1, h2] at e; cases e
    | ok a =>
      cases h2 : importTypes ((j.get? "namespace").bind Json.asStr) ts r' with
      | error a' => rw [h1, h2] at e; cases e
      | ok a' =>
        rw [h1, h2] at e
        injection e with e
        exact withMessages_same e _

theorem importSchema_same (j : Json) {r r' : Registry} (hr : blankTable r = blankTable r') :
    (importSchema j r).map blankTable = (importSchema j r').map blankTable := by
  unfold importSchema
  cases jsonToSchema none j with
  | error e => rfl
  | ok s => exact congrArg Except.ok (flattenAndRegister_same hr s)

omit [CharTables] in
theorem errorSpan_some (spans : List (String × Span)) {span : Option Span} (h : span.isSome = true)
    (x : String) : ∃ sp, errorSpan spans span x = some sp := by
  obtain ⟨sp, rfl⟩ := Option.isSome_iff_exists.mp h
  unfold errorSpan
  cases (spans.reverse.find? fun y => y.1 == x) with
  | none => exact ⟨_, rfl⟩
  | some y => exact ⟨_, rfl⟩

omit [CharTables] in
/-- Nothing is left out if the declaration has a position. -/
theorem related_all (spans : List (String × Span)) {span : Option Span} (h : span.isSome = true)
    (l : List (String × DefaultReason)) :
    (l.filterMap fun x => (errorSpan spans span x.1).map fun sp => (x.1, x.2, sp)).map
      (fun y => (y.1, y.2.1)) = l := by
  induction l with
  | nil => rfl
  | cons x l ih =>
    obtain ⟨sp, hsp⟩ := errorSpan_some spans h x.1
    rw [List.filterMap_cons_some (b := (x.1, x.2, sp)) (by rw [hsp]; rfl), List.map_cons, ih]

theorem declareType_same (fuel : Nat) {s s' : Schema} {span span' : Option Span}
    (spans spans' : List (String × Span)) (hsp : span.isSome = true) (hsp' : span'.isSome = true)
    {c c' : Ctx} (hs : s.blank = s'.blank) (hc : SameCtx c c') :
    SameStep (fun _ _ => True) (declareType fuel s span spans c)
      (declareType fuel s' span' spans' c') := by
  have h := register_same hc.registry hs
  unfold declareType
  cases h1 : c.registry.register s with
  | error e =>
    cases h2 : c'.registry.register s' with
    | error e' =>
      rw [h1, h2] at h
      injection h with h
      subst h
      exact .error .register hc
    | ok q => rw [h1, h2] at h; cases h
  | ok q =>
    cases h2 : c'.registry.register s' with
    | error e' => rw [h1, h2] at h; cases h
    | ok q' =>
      rw [h1, h2] at h
      injection h with h
      have hc' : SameCtx { c with registry := q } { c' with registry := q' } :=
        sameCtx_mk h hc.imported hc.warnings hc.messages hc.jsonImports
      have hv : validateRecordFieldDefaults q.find? fuel s =
          validateRecordFieldDefaults q'.find? fuel s' := by
        rw [← fieldDefaults_blank (find_blank q), hs, h, fieldDefaults_blank (find_blank q')]
      have hn : s.fullName? = s'.fullName? := by
        rw [← fullName_blank, hs, fullName_blank]
      dsimp only
      rw [hv]
      cases validateRecordFieldDefaults q'.find? fuel s' with
      | none => exact .error .same hc'
      | some l =>
        cases l with
        | nil => exact .ok trivial hc'
        | cons x l =>
          unfold defaultsErr
          rw [hn]
          exact .error (.invalidDefaults (by rw [related_all spans hsp, related_all spans' hsp'])) hc'

end

/-! ## Parsing -/

theorem parserTokens_same (file : String) (s : List LexToken) : ∀ i,
    mutes (parserTokens file i s) = (s.filter fun t => t.kind ≠ .doc).map fun t =>
      (⟨t.kind, t.text, 0, none⟩ : PTok) := by
  induction s with
  | nil => intro _; rfl
  | cons t s ih =>
    intro i
    rw [parserTokens]
    by_cases e : t.kind = .doc
    · rw [if_pos e, ih, List.filter_cons_of_neg (by simpa using e)]
    · rw [if_neg e, mutes_cons, ih, List.filter_cons_of_pos (by simpa using e)]
      rfl

/-- A source without positions. -/
def muteSource (s : Source) : Source :=
  { s with tokens := [], ast := s.ast.mute, marks := [],
           lexerErrors := s.lexerErrors.map fun e => ⟨e.text, 0, 0, ⟨0, 0, ""⟩⟩ }

theorem lexErrorsOf_mute (file : String) (source : List Char) (ps : List Piece) :
    ∀ at_, (lexErrorsOf file source at_ ps).map (fun e => (⟨e.text, 0, 0, ⟨0, 0, ""⟩⟩ : LexError)) =
      (lexErrors ps).map fun t => ⟨String.ofList t, 0, 0, ⟨0, 0, ""⟩⟩ := by
  induction ps with
  | nil => intro _; rfl
  | cons p ps ih =>
    intro at_
    obtain ⟨k, t⟩ := p
    unfold lexErrors at ih ⊢
    cases k with
    | none => simp only [lexErrorsOf, List.map_cons, List.filterMap_cons, ih]
    | some k => simp only [lexErrorsOf, List.filterMap_cons, ih]

theorem lexErrors_filter (ps : List Piece) :
    lexErrors ps = (ps.filter fun p => p.kind.isNone).map (·.text) := by
  induction ps with
  | nil => rfl
  | cons p ps ih =>
    obtain ⟨k, t⟩ := p
    unfold lexErrors at ih ⊢
    cases k with
    | none =>
      rw [List.filterMap_cons]
      dsimp only
      rw [ih]
      rfl
    | some k =>
      rw [List.filterMap_cons]
      dsimp only
      rw [ih]
      rfl

theorem stream_code (ps : List Piece) (at_ : Nat) :
    ((streamOf at_ ps).filter fun t => t.kind ≠ .doc).map (fun t => (t.kind, t.text)) =
      (code ps).map fun x => (x.1, String.ofList x.2) := by
  have h := congrArg (List.filter fun x : Kind × String => x.1 ≠ .doc) (streamOf_significant ps at_)
  rw [List.filter_map, List.filter_map] at h
  exact h

theorem parseSource_same {file file' text text' : String} (h : SameCode text text') :
    (parseSource file text).map muteSource = (parseSource file' text').map muteSource := by
  obtain ⟨ps, ps', h1, h2, h3, h4⟩ := h
  have e1 := lex_iff.mp h1
  have e2 := lex_iff.mp h2
  unfold parseSource
  dsimp only
  rw [e1, e2]
  have hs : (((streamOf 0 ps).filter fun t => t.kind ≠ .doc).map fun t => (t.kind, t.text)) =
      ((streamOf 0 ps').filter fun t => t.kind ≠ .doc).map fun t => (t.kind, t.text) := by
    rw [stream_code, stream_code, h3]
  have hb : mutes (parserTokens file 0 (streamOf 0 ps)) =
      mutes (parserTokens file' 0 (streamOf 0 ps')) := by
    rw [parserTokens_same, parserTokens_same]
    have := congrArg (List.map fun x : Kind × String => (⟨x.1, x.2, 0, none⟩ : PTok)) hs
    rwa [List.map_map, List.map_map] at this
  have hl : (parserTokens file 0 (streamOf 0 ps)).length =
      (parserTokens file' 0 (streamOf 0 ps')).length := by
    have := congrArg List.length hb
    rwa [List.length_map, List.length_map] at this
  have hf := pFile_mute ((parserTokens file 0 (streamOf 0 ps)).length + 1)
    (parserTokens file 0 (streamOf 0 ps))
  have hf' := pFile_mute ((parserTokens file 0 (streamOf 0 ps)).length + 1)
    (parserTokens file' 0 (streamOf 0 ps'))
  rw [hb, hf'] at hf
  rw [← hl]
  rw [Option.map_map, Option.map_map]
  have hx : (lexErrors ps).map (fun t => (⟨String.ofList t, 0, 0, ⟨0, 0, ""⟩⟩ : LexError)) =
      (lexErrors ps').map fun t => ⟨String.ofList t, 0, 0, ⟨0, 0, ""⟩⟩ := by
    rw [lexErrors_filter, lexErrors_filter, h4]
  revert hf
  generalize pFile _ (parserTokens file 0 (streamOf 0 ps)) = x
  generalize pFile _ (parserTokens file' 0 (streamOf 0 ps')) = x'
  intro hf
  cases x with
  | none =>
    cases x' with
    | none => rfl
    | some a => cases hf
  | some a =>
    cases x' with
    | none => cases hf
    | some a' =>
      injection hf with hf
      show some _ = some _
      unfold muteSource Function.comp
      dsimp only
      rw [hf, lexErrorsOf_mute, lexErrorsOf_mute, hx]

section
variable [CharTables] [FloatTables] [CaseTables]

omit [CharTables] [FloatTables] [CaseTables] in
theorem map_decl_blank (ds : List DeclItem) :
    (ds.map DeclItem.mute).map DeclItem.blank = ds.map DeclItem.blank := by
  rw [List.map_map]
  congr 1
  funext d
  exact decl_blank_mute d

/-- The result of `parseIdl` without positions, documentation and repeated imports. -/
def muteParsed (r : IdlFile × List DeclItem × List Warning) :
    IdlFile × List DeclItem × List Warning := (r.1.blank, essence r.2.1, muteWarnings r.2.2)

/-- An error of the reader without positions and documentation. -/
def muteErr : CompileErr → CompileErr
  | .read name e => .read name e.mute
  | e => e

/-- What reading a file gives, without positions and documentation. -/
def muteRead : Except CompileErr (IdlFile × List DeclItem × List Warning) →
    Except CompileErr (IdlFile × List DeclItem × List Warning)
  | .error e => .error (muteErr e)
  | .ok r => .ok (muteParsed r)

omit [CharTables] [FloatTables] [CaseTables] in
theorem sameReason_of_mute {e e' : CompileErr} (h : muteErr e = muteErr e') : SameReason e e' := by
  by_cases h1 : ∃ n x, e = .read n x
  · obtain ⟨n, x, rfl⟩ := h1
    obtain ⟨x, s⟩ := x
    cases e' with
    | read n' x' =>
      obtain ⟨x', s'⟩ := x'
      cases h
      exact .read
    | _ => cases h
  · have e1 : muteErr e = e := by
      cases e with
      | read n x => exact absurd ⟨n, x, rfl⟩ h1
      | _ => rfl
    rw [e1] at h
    by_cases h2 : ∃ n x, e' = .read n x
    · obtain ⟨n, x, rfl⟩ := h2
      exact absurd ⟨n, x.mute, h⟩ h1
    · have e2 : muteErr e' = e' := by
        cases e' with
        | read n x => exact absurd ⟨n, x, rfl⟩ h2
        | _ => rfl
      rw [e2] at h
      rw [h]
      exact .same

/-- The reader gives the same for the two texts, apart from positions and documentation. -/
def AlikeText (text text' : String) : Prop :=
  ∀ w w' : World, w.parse = parseSource → w'.parse = parseSource → ∀ name,
    muteRead (parseIdl w text name) = muteRead (parseIdl w' text' name)

/-- Two files that can both not be read, or for which the reader gives the same.  Read as JSON, they
give the same. -/
inductive AlikeFile (json : String → Option Json) : Option String → Option String → Prop
  | unreadable : AlikeFile json none none
  | read {text text'} : AlikeText text text' → json text = json text' →
      AlikeFile json (some text) (some text')

theorem parseIdl_same {text text' : String} (h : SameCode text text') : AlikeText text text' := by
  intro w w' hw hw' name
  have hp := parseSource_same (file := name) (file' := name) h
  unfold parseIdl
  rw [hw, hw']
  cases h1 : parseSource name text with
  | none =>
    cases h2 : parseSource name text' with
    | none => rfl
    | some s' => rw [h1, h2] at hp; cases hp
  | some s =>
    cases h2 : parseSource name text' with
    | none => rw [h1, h2] at hp; cases hp
    | some s' =>
      rw [h1, h2] at hp
      injection hp with hp
      have he : ∀ s : Source, muteWarnings (s.lexerErrors.map Warning.lexer) =
          (muteSource s).lexerErrors.map .lexer := by
        intro s
        unfold muteSource muteWarnings
        rw [List.filter_eq_self.mpr (by intro x hx; obtain ⟨e, _, rfl⟩ := List.mem_map.mp hx; rfl),
          List.map_map, List.map_map]
        rfl
      have ha : s.ast.mute = s'.ast.mute :=
        (congrArg Source.ast hp : (muteSource s).ast = (muteSource s').ast)
      have hr : muteExcept muteResult (readFile s.tokens s.ast) =
          muteExcept muteResult (readFile s'.tokens s'.ast) := by
        rw [← readFile_mute, ← readFile_mute, ha]
      dsimp only
      cases h3 : readFile s.tokens s.ast with
      | error e =>
        cases h4 : readFile s'.tokens s'.ast with
        | error e' =>
          rw [h3, h4] at hr
          injection hr with hr
          show Except.error (CompileErr.read _ _) = .error (.read _ _)
          rw [hr]
        | ok r' => rw [h3, h4] at hr; cases hr
      | ok r =>
        cases h4 : readFile s'.tokens s'.ast with
        | error e' => rw [h3, h4] at hr; cases hr
        | ok r' =>
          rw [h3, h4] at hr
          injection hr with hr
          have e1 : r.file.mute = r'.file.mute := congrArg ReadResult.file hr
          have e2 : r.decls.map DeclItem.mute = r'.decls.map DeclItem.mute :=
            congrArg ReadResult.decls hr
          have e4 : r.warnings.map WalkWarning.mute = r'.warnings.map WalkWarning.mute :=
            congrArg ReadResult.warnings hr
          have e5 : ∀ ws : List WalkWarning,
              muteWarnings (ws.map Warning.walk) = (ws.map WalkWarning.mute).map .walk := by
            intro ws
            unfold muteWarnings
            rw [List.filter_eq_self.mpr (by
              intro x hx; obtain ⟨e, _, rfl⟩ := List.mem_map.mp hx; rfl), List.map_map, List.map_map]
            rfl
          have e6 : ∀ (ms : List Mark) (os : List Nat),
              muteWarnings (os.map (docWarning ms name)) = [] := by
            intro ms os
            unfold muteWarnings
            rw [List.filter_eq_nil_iff.mpr (by
              intro x hx; obtain ⟨e, _, rfl⟩ := List.mem_map.mp hx; simp [docWarning, docsOnly])]
            rfl
          show Except.ok _ = Except.ok _
          unfold muteParsed
          dsimp only
          have e7 : essence r.decls = essence r'.decls := essence_of_blank (by
            rw [← map_decl_blank, e2, map_decl_blank])
          rw [← file_blank_mute, e1, file_blank_mute, e7]
          simp only [muteWarnings_append, e5, e4, e6, he, hp]

theorem file_same {json : String → Option Json} {x y : Option String} (h : SameFile json x y) :
    AlikeFile json x y := by
  cases h with
  | unreadable => exact .unreadable
  | read ht hj => exact .read (parseIdl_same ht) hj

omit [CharTables] [FloatTables] [CaseTables] in
theorem messages_same {f f' : IdlFile} (h : f.blank = f'.blank) :
    f.messages.map blankMessage = f'.messages.map blankMessage := by
  have e : ∀ f : IdlFile, f.blank.messages = f.messages.map blankMessage := by
    intro f
    cases f <;> rfl
  rw [← e, ← e, h]

variable {w : World} {rd : Path → Option String}

/-- The type declarations have positions. -/
def Positioned (ds : List DeclItem) : Prop :=
  ∀ s span spans, DeclItem.type s span spans ∈ ds → span.isSome = true

theorem parseIdl_positioned (hp : w.parse = parseSource) {text name : String}
    {q : IdlFile × List DeclItem × List Warning} (h : parseIdl w text name = .ok q) :
    Positioned q.2.1 := by
  intro s span spans hm
  obtain ⟨sp, rfl, _⟩ := ((parseIdl_places (J := []) hp (text := text) (name := name)
    (.inl ⟨rfl, rfl⟩) h).1 s span spans hm).1
  rfl

theorem readIdl_positioned (hp : w.parse = parseSource) {p : Path}
    {q : IdlFile × List DeclItem × List Warning} (h : readIdl w p = .ok q) :
    Positioned q.2.1 := by
  unfold readIdl at h
  split at h
  · cases h
  · exact parseIdl_positioned hp h

omit [CharTables] [FloatTables] [CaseTables] in
theorem Positioned.tail {d : DeclItem} {ds : List DeclItem} (h : Positioned (d :: ds)) :
    Positioned ds := fun s span spans hm => h s span spans (List.mem_cons_of_mem _ hm)

omit [CharTables] [FloatTables] [CaseTables] in
theorem Positioned.once {ds : List DeclItem} (h : Positioned ds) : Positioned (onceEach [] ds) :=
  fun s span spans hm => h s span spans (onceEach_mem hm)

/-- The nested calls give the same. -/
def SameNested (n n' : List DeclItem → Path → Ctx → Outcome Unit) : Prop :=
  ∀ ds ds' dir c c', Positioned ds → Positioned ds' →
    essence ds = essence ds' → SameCtx c c' →
    SameStep (fun _ _ => True) (n ds dir c) (n' ds' dir c')

theorem readJson_same (hf : ∀ p, AlikeFile w.parseJson (w.read p) (rd p)) (p : Path) :
    readJson w p = readJson { w with read := rd } p := by
  unfold readJson
  have h := hf p
  dsimp only
  generalize w.read p = x at h
  generalize rd p = y at h
  cases h with
  | unreadable => rfl
  | read _ hj => dsimp only; rw [hj]

theorem readIdl_same (hp : w.parse = parseSource)
    (hf : ∀ p, AlikeFile w.parseJson (w.read p) (rd p)) (p : Path) :
    muteRead (readIdl w p) = muteRead (readIdl { w with read := rd } p) := by
  unfold readIdl
  have h := hf p
  dsimp only
  generalize w.read p = x at h
  generalize rd p = y at h
  cases h with
  | unreadable => rfl
  | read ht _ => exact ht _ _ hp hp p

theorem resolveSingleImport_same (hp : w.parse = parseSource)
    (hf : ∀ p, AlikeFile w.parseJson (w.read p) (rd p)) (dirs : List Path)
    {n n' : List DeclItem → Path → Ctx → Outcome Unit} (hn : SameNested n n')
    {i i' : ImportEntry} (hi : i.mute = i'.mute) (dir : Path) {c c' : Ctx} (hc : SameCtx c c') :
    SameStep (fun _ _ => True) (resolveSingleImport w dirs n i dir c)
      (resolveSingleImport { w with read := rd } dirs n' i' dir c') := by
  have hk : i.kind = i'.kind :=
    (congrArg ImportEntry.kind hi : (ImportEntry.mute i).kind = (ImportEntry.mute i').kind)
  have hpath : i.path = i'.path :=
    (congrArg ImportEntry.path hi : (ImportEntry.mute i).path = (ImportEntry.mute i').path)
  have hs : ∀ file ds, searchDirs { w with read := rd } file ds = searchDirs w file ds := by
    intro file ds
    induction ds with
    | nil => rfl
    | cons d ds ih => rw [searchDirs, searchDirs, ih]
  have hr : resolveImport { w with read := rd } dirs i'.path dir =
      resolveImport w dirs i'.path dir := by
    unfold resolveImport
    rw [hs]
  unfold resolveSingleImport
  rw [hr, hpath]
  cases resolveImport w dirs i'.path dir with
  | error e => exact .error .importFailed hc
  | ok p =>
    dsimp only
    rw [hc.imported]
    split
    · exact .ok trivial hc
    · have hc1 : SameCtx { c with imported := p :: c'.imported }
          { c' with imported := p :: c'.imported } :=
        sameCtx_mk hc.registry rfl hc.warnings hc.messages hc.jsonImports
      have hj : (c.jsonImports ++ [(p, i.span)]).map (fun x => (x.1, (none : Option Span))) =
          (c'.jsonImports ++ [(p, i'.span)]).map fun x => (x.1, none) := by
        rw [List.map_append, List.map_append, hc.jsonImports]
        rfl
      rw [hk, ← readJson_same hf]
      cases i'.kind with
      | protocol =>
        dsimp only
        cases readJson w p with
        | error e => exact .error .importFailed hc1
        | ok j =>
          dsimp only
          have h := importProtocol_same j hc.registry
          cases h1 : importProtocol j c.registry with
          | error e =>
            cases h2 : importProtocol j c'.registry with
            | error e' =>
              rw [h1, h2] at h
              injection h with h
              rw [h]
              exact .error .importFailed hc1
            | ok q => rw [h1, h2] at h; cases h
          | ok q =>
            cases h2 : importProtocol j c'.registry with
            | error e' => rw [h1, h2] at h; cases h
            | ok q' =>
              rw [h1, h2] at h
              injection h with h
              have e1 : blankTable q.1 = blankTable q'.1 := congrArg Prod.fst h
              have e2 : q.2 = q'.2 := (congrArg Prod.snd h : (blankTable q.1, q.2).2 = _)
              refine .ok trivial (sameCtx_mk e1 rfl hc.warnings ?_ hj)
              exact extendMessages_same hc.messages (by rw [e2])
      | schema =>
        dsimp only
        cases readJson w p with
        | error e => exact .error .importFailed hc1
        | ok j =>
          dsimp only
          have h := importSchema_same j hc.registry
          cases h1 : importSchema j c.registry with
          | error e =>
            cases h2 : importSchema j c'.registry with
            | error e' =>
              rw [h1, h2] at h
              injection h with h
              rw [h]
              exact .error .importFailed hc1
            | ok q => rw [h1, h2] at h; cases h
          | ok q =>
            cases h2 : importSchema j c'.registry with
            | error e' => rw [h1, h2] at h; cases h
            | ok q' =>
              rw [h1, h2] at h
              injection h with h
              exact .ok trivial (sameCtx_mk h rfl hc.warnings hc.messages hj)
      | idl =>
        dsimp only
        have h := readIdl_same hp hf p
        cases h1 : readIdl w p with
        | error e =>
          cases h2 : readIdl { w with read := rd } p with
          | error e' =>
            rw [h1, h2] at h
            injection h with h
            exact .error (sameReason_of_mute h) hc1
          | ok q => rw [h1, h2] at h; cases h
        | ok q =>
          cases h2 : readIdl { w with read := rd } p with
          | error e' => rw [h1, h2] at h; cases h
          | ok q' =>
            rw [h1, h2] at h
            injection h with h
            have e1 : q.1.blank = q'.1.blank := congrArg Prod.fst h
            have e2 : essence q.2.1 = essence q'.2.1 :=
              congrArg (fun x => x.2.1) h
            have e3 : muteWarnings q.2.2 = muteWarnings q'.2.2 := congrArg (fun x => x.2.2) h
            refine hn _ _ _ _ _ (readIdl_positioned hp h1) (readIdl_positioned (by exact hp) h2) e2
              (sameCtx_mk hc.registry rfl ?_ ?_ hc.jsonImports)
            · show muteReports (c.warnings ++ importReports w p i'.path q.2.2) =
                muteReports (c'.warnings ++ importReports w p i'.path q'.2.2)
              rw [muteReports_append, muteReports_append, hc.warnings]
              congr 1
              exact reports_same e3 _
            · exact extendMessages_same hc.messages (messages_same e1)

theorem processItems_same (hp : w.parse = parseSource)
    (hf : ∀ p, AlikeFile w.parseJson (w.read p) (rd p)) (dirs : List Path) (fuel : Nat)
    {n n' : List DeclItem → Path → Ctx → Outcome Unit} (hn : SameNested n n')
    (ds ds' : List DeclItem) (dir : Path) (c c' : Ctx) (hpos : Positioned ds) (hpos' : Positioned ds')
    (hd : ds.map DeclItem.blank = ds'.map DeclItem.blank) (hc : SameCtx c c') :
    SameStep (fun _ _ => True) (processItems w dirs fuel n ds dir c)
      (processItems { w with read := rd } dirs fuel n' ds' dir c') := by
  induction ds generalizing ds' c c' with
  | nil =>
    cases ds' with
    | nil => exact .ok trivial hc
    | cons d ds' => cases hd
  | cons d ds ih =>
    cases ds' with
    | nil => cases hd
    | cons d' ds' =>
      rw [List.map_cons, List.map_cons] at hd
      injection hd with h1 h2
      cases d with
      | import_ i =>
        cases d' with
        | type s' sp' fs' => cases h1
        | import_ i' =>
          injection h1 with h1
          have h := resolveSingleImport_same hp hf dirs hn h1 dir hc
          rw [processItems, processItems]
          generalize resolveSingleImport w dirs n i dir c = x at h
          generalize resolveSingleImport { w with read := rd } dirs n' i' dir c' = y at h
          cases h with
          | ok _ hc => exact ih _ _ _ hpos.tail hpos'.tail h2 hc
          | error e hc => exact .error e hc
      | type s sp fs =>
        cases d' with
        | import_ i' => cases h1
        | type s' sp' fs' =>
          injection h1 with h1
          have h := declareType_same fuel fs fs' (hpos _ _ _ (List.mem_cons_self ..))
            (hpos' _ _ _ (List.mem_cons_self ..)) h1 hc
          rw [processItems, processItems]
          generalize declareType fuel s sp fs c = x at h
          generalize declareType fuel s' sp' fs' c' = y at h
          cases h with
          | ok _ hc => exact ih _ _ _ hpos.tail hpos'.tail h2 hc
          | error e hc => exact .error e hc

theorem processDecls_same (hp : w.parse = parseSource)
    (hf : ∀ p, AlikeFile w.parseJson (w.read p) (rd p)) (dirs : List Path) (fuel depth : Nat) :
    SameNested (processDecls w dirs fuel depth)
      (processDecls { w with read := rd } dirs fuel depth) := by
  induction depth with
  | zero => exact fun ds ds' dir c c' _ _ _ hc => .error .same hc
  | succ n ih =>
    intro ds ds' dir c c' hpos hpos' hd hc
    rw [← processDecls_once, ← processDecls_once (ds := ds')]
    refine processItems_same hp hf dirs fuel ih _ _ dir c c' (hpos.once) (hpos'.once) ?_ hc
    rw [← onceEach_blank, ← onceEach_blank]
    exact hd

theorem parseAndResolve_same (hp : w.parse = parseSource)
    (hf : ∀ p, AlikeFile w.parseJson (w.read p) (rd p)) (dirs : List Path) (fuel : Nat)
    {text text' : String} (ht : AlikeText text text') (name : String) (dir : Path)
    (path : Option Path) {c c' : Ctx} (hc : SameCtx c c') :
    SameStep (fun f f' => f.blank = f'.blank)
      (parseAndResolve w dirs fuel text name dir path c)
      (parseAndResolve { w with read := rd } dirs fuel text' name dir path c') := by
  have h : muteRead (parseIdl w text name) =
      muteRead (parseIdl { w with read := rd } text' name) := ht _ _ hp hp name
  unfold parseAndResolve
  cases h1 : parseIdl w text name with
  | error e =>
    cases h2 : parseIdl { w with read := rd } text' name with
    | error e' =>
      rw [h1, h2] at h
      injection h with h
      exact .error (sameReason_of_mute h) hc
    | ok q => rw [h1, h2] at h; cases h
  | ok q =>
    cases h2 : parseIdl { w with read := rd } text' name with
    | error e' => rw [h1, h2] at h; cases h
    | ok q' =>
      rw [h1, h2] at h
      injection h with h
      have e1 : q.1.blank = q'.1.blank := congrArg Prod.fst h
      have e2 : essence q.2.1 = essence q'.2.1 :=
        congrArg (fun x => x.2.1) h
      have e3 : muteWarnings q.2.2 = muteWarnings q'.2.2 := congrArg (fun x => x.2.2) h
      dsimp only
      have hc1 : SameCtx { c with warnings := c.warnings ++ q.2.2.map fun x => ⟨x, none⟩,
                                  imported := path.toList ++ c.imported }
          { c' with warnings := c'.warnings ++ q'.2.2.map fun x => ⟨x, none⟩,
                    imported := path.toList ++ c'.imported } :=
        sameCtx_mk hc.registry (by dsimp only; rw [hc.imported])
          (by
            dsimp only
            rw [muteReports_append, muteReports_append, hc.warnings, reports_same e3]) hc.messages hc.jsonImports
      have hd := processDecls_same hp hf dirs fuel fuel q.2.1 q'.2.1 dir _ _ (parseIdl_positioned hp h1)
        (parseIdl_positioned (by exact hp) h2) e2 hc1
      revert hd
      generalize processDecls w dirs fuel fuel q.2.1 dir _ = x
      generalize processDecls { w with read := rd } dirs fuel fuel q'.2.1 dir _ = y
      intro hd
      cases hd with
      | error e hc => exact .error e hc
      | @ok _ _ c2 c2' _ hc =>
        refine .ok ?_ hc
        generalize q.1 = f at e1
        generalize q'.1 = f' at e1
        cases f with
        | protocol p =>
          cases f' with
          | protocol p' =>
            injection e1 with e1
            obtain ⟨n, ns, d, ps, ty, ms⟩ := p
            obtain ⟨n', ns', d', ps', ty', ms'⟩ := p'
            unfold Protocol.blank at e1
            injection e1 with a1 a2 a3 a4 a5 a6
            dsimp only at a1 a2 a3 a4 a5 a6
            subst a1 a2 a4
            show IdlFile.protocol _ = IdlFile.protocol _
            unfold Protocol.blank
            dsimp only
            rw [← schemas_table, ← schemas_table, hc.registry, extendMessages_same hc.messages a6]
          | schema s => cases e1
          | named ss => cases e1
        | schema s =>
          cases f' with
          | schema s' => exact e1
          | protocol p => cases e1
          | named ss => cases e1
        | named ss =>
          cases f' with
          | named ss' => exact e1
          | protocol p => cases e1
          | schema s => cases e1

/-! ## The builders -/

/-- Outputs that differ in positions and documentation only. -/
structure SameOut (o o' : CompileOutput) : Prop where
  file : o.file.blank = o'.file.blank
  registry : blankTable o.registry = blankTable o'.registry
  warnings : SameReports o.warnings o'.warnings

/-- Compilations that differ in positions and documentation only. -/
inductive SameCompile : Except CompileErr CompileOutput × Builder →
    Except CompileErr CompileOutput × Builder → Prop
  | ok {o o' b b'} : SameOut o o' → SameBuilder b b' → SameCompile (.ok o, b) (.ok o', b')
  | error {e e' b b'} : SameReason e e' → SameBuilder b b' →
      SameCompile (.error e, b) (.error e', b')

theorem compile_same (hp : w.parse = parseSource)
    (hf : ∀ p, AlikeFile w.parseJson (w.read p) (rd p)) {b b' : Builder} (hb : SameBuilder b b') (fuel : Nat)
    {text text' : String} (ht : AlikeText text text') (name : String) (dir : Path)
    (path : Option Path) :
    SameCompile (b.compile w fuel text name dir path)
      (b'.compile { w with read := rd } fuel text' name dir path) := by
  unfold Builder.compile
  dsimp only
  rw [← hb.1]
  have h := parseAndResolve_same hp hf b.importDirs fuel ht name dir path
    (rfl : SameCtx Ctx.new Ctx.new)
  generalize parseAndResolve w b.importDirs fuel text name dir path Ctx.new = x at h
  generalize parseAndResolve { w with read := rd } b.importDirs fuel text' name dir path Ctx.new = y
    at h
  cases h with
  | error e hc =>
    exact .error e ⟨rfl, sameReports_iff.mpr hc.warnings⟩
  | @ok f f' c c' hfile hc =>
    dsimp only
    have hu := undefinedNames_same hfile hc.registry
    unfold validateAllReferences
    cases h1 : undefinedNames f c.registry with
    | nil =>
      cases h2 : undefinedNames f' c'.registry with
      | nil => exact .ok ⟨hfile, hc.registry, sameReports_iff.mpr hc.warnings⟩ ⟨rfl, .nil⟩
      | cons x l =>
        rw [h1, h2] at hu
        exact absurd hu.length_eq (by simp)
    | cons x l =>
      cases h2 : undefinedNames f' c'.registry with
      | nil =>
        rw [h1, h2] at hu
        exact absurd hu.length_eq (by simp)
      | cons x' l' =>
        rw [h1, h2] at hu
        exact .error (.undefined hu) ⟨rfl, sameReports_iff.mpr hc.warnings⟩

theorem compileFile_same (hp : w.parse = parseSource)
    (hf : ∀ p, AlikeFile w.parseJson (w.read p) (rd p)) {b b' : Builder} (hb : SameBuilder b b') (fuel : Nat) (path : Path) :
    SameCompile (b.compileFile w fuel path) (b'.compileFile { w with read := rd } fuel path) := by
  unfold Builder.compileFile
  have h := hf path
  dsimp only
  generalize w.read path = x at h
  generalize rd path = y at h
  cases h with
  | unreadable => exact .error .same hb
  | read ht _ => exact compile_same hp hf hb fuel ht _ _ _

theorem compileStr_same (hp : w.parse = parseSource)
    (hf : ∀ p, AlikeFile w.parseJson (w.read p) (rd p)) {b b' : Builder} (hb : SameBuilder b b') (fuel : Nat)
    {text text' : String} (ht : AlikeText text text') (name : String) :
    SameCompile (b.compileStr w fuel text name)
      (b'.compileStr { w with read := rd } fuel text' name) := by
  have h : ∀ x : Option Path, SameCompile
      (match x with | none => (.error .noCwd, b) | some dir => b.compile w fuel text name dir none)
      (match x with
        | none => (.error .noCwd, b')
        | some dir => b'.compile { w with read := rd } fuel text' name dir none) := by
    intro x
    cases x with
    | none => exact .error .same hb
    | some d => exact compile_same hp hf hb fuel ht _ _ _
  exact h w.cwd

omit [CharTables] [FloatTables] [CaseTables] in
theorem outputJson_same (fuel : Nat) {o o' : CompileOutput} (h : SameOut o o') :
    (outputJson fuel o).map undoc = (outputJson fuel o').map undoc := by
  obtain ⟨f, r, ws⟩ := o
  obtain ⟨f', r', ws'⟩ := o'
  obtain ⟨h1, h2, h3⟩ := h
  dsimp only at h1 h2
  have hl : blankTable (buildLookup r.schemas none) = blankTable (buildLookup r'.schemas none) := by
    rw [← buildLookup_blank, ← buildLookup_blank, ← schemas_table, ← schemas_table, h2]
  cases f with
  | protocol p =>
    cases f' with
    | protocol p' =>
      injection h1 with h1
      show (protocolToJson fuel p).map undoc = (protocolToJson fuel p').map undoc
      rw [← protocolToJson_blank, h1, protocolToJson_blank]
    | schema s => cases h1
    | named ss => cases h1
  | schema s =>
    cases f' with
    | schema s' =>
      injection h1 with h1
      unfold outputJson
      dsimp only
      have e := schemaToJson_blank (buildLookup r.schemas none) fuel s none []
      rw [hl, h1, schemaToJson_blank] at e
      have e' := congrArg (Option.map Prod.fst) e
      rw [Option.map_map, Option.map_map] at e'
      rw [Option.map_map, Option.map_map]
      exact e'.symm
    | protocol p => cases h1
    | named ss => cases h1
  | named ss =>
    cases f' with
    | named ss' => rfl
    | protocol p => cases h1
    | schema s => cases h1

omit [CharTables] [FloatTables] [CaseTables] in
theorem convertImpl_same (fuel : Nat) {r r' : Except CompileErr CompileOutput × Builder}
    (h : SameCompile r r') : SameOutcome SameDocument (convertImpl fuel r) (convertImpl fuel r') := by
  cases h with
  | error e hb => exact .error e hb
  | @ok o o' b b' h hb =>
    have hj := outputJson_same fuel h
    obtain ⟨f, r, ws⟩ := o
    obtain ⟨f', r', ws'⟩ := o'
    obtain ⟨h1, h2, h3⟩ := h
    dsimp only at h1 h3
    unfold convertImpl
    dsimp only
    cases f with
    | named ss =>
      cases f' with
      | named ss' => exact .error .same ⟨hb.1, h3⟩
      | protocol p => cases h1
      | schema s => cases h1
    | protocol p =>
      cases f' with
      | protocol p' =>
        dsimp only
        revert hj
        generalize outputJson fuel ⟨.protocol p, r, ws⟩ = x
        generalize outputJson fuel ⟨.protocol p', r', ws'⟩ = x'
        intro hj
        cases x with
        | none =>
          cases x' with
          | none => exact .error .same hb
          | some j => cases hj
        | some j =>
          cases x' with
          | none => cases hj
          | some j' =>
            injection hj with hj
            exact .ok ⟨hj, h3⟩ hb
      | schema s => cases h1
      | named ss => cases h1
    | schema s =>
      cases f' with
      | schema s' =>
        dsimp only
        revert hj
        generalize outputJson fuel ⟨.schema s, r, ws⟩ = x
        generalize outputJson fuel ⟨.schema s', r', ws'⟩ = x'
        intro hj
        cases x with
        | none =>
          cases x' with
          | none => exact .error .same hb
          | some j => cases hj
        | some j =>
          cases x' with
          | none => cases hj
          | some j' =>
            injection hj with hj
            exact .ok ⟨hj, h3⟩ hb
      | protocol p => cases h1
      | named ss => cases h1

omit [CharTables] [FloatTables] [CaseTables] in
theorem extractFrom_same (fuel : Nat) {r r' : Except CompileErr CompileOutput × Builder}
    (h : SameCompile r r') : SameOutcome SameSchemata (extractFrom fuel r) (extractFrom fuel r') := by
  cases h with
  | error e hb => exact .error e hb
  | @ok o o' b b' h hb =>
    unfold extractFrom extractImpl
    dsimp only
    have e : (extractSchemas fuel o.registry.schemas).map (List.map undocMessage) =
        (extractSchemas fuel o'.registry.schemas).map (List.map undocMessage) := by
      rw [← extractSchemas_blank, ← schemas_table, h.registry, schemas_table, extractSchemas_blank]
    revert e
    generalize extractSchemas fuel o.registry.schemas = x
    generalize extractSchemas fuel o'.registry.schemas = x'
    intro e
    cases x with
    | none =>
      cases x' with
      | none => exact .error .same hb
      | some j => cases e
    | some j =>
      cases x' with
      | none => cases e
      | some j' =>
        injection e with e
        exact .ok ⟨e, h.warnings⟩ hb

omit [CharTables] [FloatTables] [CaseTables] in
theorem sameMuteBuilder_refl (b : Builder) : SameBuilder b b := ⟨rfl, sameReports_iff.mpr rfl⟩

/-- Extracting the schemas of a list of files. -/
theorem extractFiles_mute {w : World} {rd : Path → Option String} (hp : w.parse = parseSource)
    (hf : ∀ p, AlikeFile w.parseJson (w.read p) (rd p)) (fuel : Nat) (ps : List Path)
    {b b' : Builder} (hb : SameBuilder b b') :
    SameOutcome SameSchemata (Builder.extractFiles w fuel ps b)
      (Builder.extractFiles { w with read := rd } fuel ps b') := by
  induction ps generalizing b b' with
  | nil => exact .ok ⟨rfl, .nil⟩ hb
  | cons p ps ih =>
    have h1 := extractFrom_same fuel (compileFile_same hp hf hb fuel p)
    rw [Builder.extractFiles, Builder.extractFiles]
    generalize extractFrom fuel (b.compileFile w fuel p) = x at h1
    generalize extractFrom fuel (b'.compileFile { w with read := rd } fuel p) = y at h1
    cases h1 with
    | error e hb => exact .error e hb
    | @ok out out' b1 b2 ho hb =>
      dsimp only
      have h3 := ih hb
      generalize Builder.extractFiles w fuel ps b1 = x at h3
      generalize Builder.extractFiles { w with read := rd } fuel ps b2 = y at h3
      cases h3 with
      | error e hb => exact .error e hb
      | ok hr hb =>
        exact .ok ⟨by rw [List.map_append, List.map_append, ho.1, hr.1],
          sameReports_append ho.2 hr.2⟩ hb

theorem convert_alike (hp : w.parse = parseSource)
    (hf : ∀ p, AlikeFile w.parseJson (w.read p) (rd p)) (b : Builder) (fuel : Nat) (path : Path) :
    SameOutcome SameDocument (b.convert w fuel path) (b.convert { w with read := rd } fuel path) :=
  convertImpl_same fuel (compileFile_same hp hf (sameMuteBuilder_refl b) fuel path)

theorem convertStr_alike (hp : w.parse = parseSource)
    (hf : ∀ p, AlikeFile w.parseJson (w.read p) (rd p)) (b : Builder) (fuel : Nat)
    {text text' : String} (ht : AlikeText text text') (name : String) :
    SameOutcome SameDocument (b.convertStr w fuel text name)
      (b.convertStr { w with read := rd } fuel text' name) :=
  convertImpl_same fuel (compileStr_same hp hf (sameMuteBuilder_refl b) fuel ht name)

theorem extract_alike (hp : w.parse = parseSource)
    (hf : ∀ p, AlikeFile w.parseJson (w.read p) (rd p)) (b : Builder) (fuel : Nat) (path : Path) :
    SameOutcome SameSchemata (b.extract w fuel path) (b.extract { w with read := rd } fuel path) := by
  unfold Builder.extract
  dsimp only
  split
  · exact extractFiles_mute hp hf fuel _ (sameMuteBuilder_refl b)
  · exact extractFrom_same fuel (compileFile_same hp hf (sameMuteBuilder_refl b) fuel path)

theorem extractStr_alike (hp : w.parse = parseSource)
    (hf : ∀ p, AlikeFile w.parseJson (w.read p) (rd p)) (b : Builder) (fuel : Nat)
    {text text' : String} (ht : AlikeText text text') (name : String) :
    SameOutcome SameSchemata (b.extractStr w fuel text name)
      (b.extractStr { w with read := rd } fuel text' name) :=
  extractFrom_same fuel (compileStr_same hp hf (sameMuteBuilder_refl b) fuel ht name)

end

end Avdl.MuteCompile
