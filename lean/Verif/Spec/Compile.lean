import Verif.Compiler
import Verif.Spec.Default
/-!
# Specification: what a compilation goes through

The files and declarations a compilation meets, in order, as a list of events.  Imports are
followed at the place of the import statement; a file met before is passed over.
-/

namespace Avdl.Spec

/-- The first of the directories that has the file, and the path of the file there. -/
def FoundIn (w : World) (dirs : List Path) (file : String) (p : Path) : Prop :=
  ∃ (i : Nat) (d : Path), dirs[i]? = some d ∧ p = w.join d file ∧ w.exists_ p = true ∧
    ∀ (j : Nat) (d' : Path), j < i → dirs[j]? = some d' → w.exists_ (w.join d' file) = false

/-- The file an import of `file` in a file of directory `dir` refers to. -/
def ImportsTo (w : World) (dirs : List Path) (dir : Path) (file : String) (p : Path) : Prop :=
  ∃ q, FoundIn w (dir :: dirs) file q ∧ w.canonicalize q = some p

/-- The directory imports in the file `path` are relative to. -/
def fileDir (w : World) (path : Path) : Path :=
  (w.canonicalize ((w.parent path).getD ".")).getD ((w.parent path).getD ".")

/-- What happens in the course of a compilation. -/
inductive Event where
  /-- A type declaration is met. -/
  | type (s : Schema) (span : Option Span) (spans : List (String × Span))
  /-- A JSON schema file is imported. -/
  | schema (path : Path) (j : Json) (span : Option Span)
  /-- A JSON protocol file is imported. -/
  | protocol (path : Path) (j : Json) (span : Option Span)
  /-- An IDL file is imported; its declarations follow. -/
  | idl (path : Path) (importedAs : String) (file : IdlFile) (warnings : List Warning)

/-- The file of an import event. -/
def Event.path? : Event → Option Path
  | .type .. => none
  | .schema p .. | .protocol p .. | .idl p .. => some p

/-- The file of an import of JSON. -/
def Event.jsonPath? : Event → Option Path
  | .schema p .. | .protocol p .. => some p
  | _ => none

/-- How a trace ends: all declarations processed (with the files met so far), or an import that
cannot be followed (with the error), or cut off. -/
inductive Ending where
  | finished (seen : List Path)
  | stuck (e : CompileErr)
  | cut

section
variable [CharTables] [FloatTables] [CaseTables]

/-- The events for a list of declarations in a file of directory `dir`, the files `seen` having been
met before. -/
inductive Trace (w : World) (dirs : List Path) :
    Path → List Path → List DeclItem → List Event → Ending → Prop
  | nil {dir seen} : Trace w dirs dir seen [] [] (.finished seen)
  | cut {dir seen items} : Trace w dirs dir seen items [] .cut
  | type {dir seen s span spans items es e} : Trace w dirs dir seen items es e →
      Trace w dirs dir seen (.type s span spans :: items) (.type s span spans :: es) e
  | notFound {dir seen i items} : (∀ d ∈ dir :: dirs, w.exists_ (w.join d i.path) = false) →
      Trace w dirs dir seen (.import_ i :: items) []
        (.stuck (.importFailed i.span (.importNotFound i.path (dir :: dirs))))
  | notCanonical {dir seen i q items} : FoundIn w (dir :: dirs) i.path q → w.canonicalize q = none →
      Trace w dirs dir seen (.import_ i :: items) []
        (.stuck (.importFailed i.span (.canonicalizeFailed i.path)))
  | again {dir seen i p items es e} : ImportsTo w dirs dir i.path p → p ∈ seen →
      Trace w dirs dir seen items es e → Trace w dirs dir seen (.import_ i :: items) es e
  | badJson {dir seen i p e items} : ImportsTo w dirs dir i.path p → p ∉ seen → i.kind ≠ .idl →
      readJson w p = .error e →
      Trace w dirs dir seen (.import_ i :: items) [] (.stuck (.importFailed i.span e))
  | schema {dir seen i p j items es e} : ImportsTo w dirs dir i.path p → p ∉ seen →
      i.kind = .schema → readJson w p = .ok j → Trace w dirs dir (p :: seen) items es e →
      Trace w dirs dir seen (.import_ i :: items) (.schema p j i.span :: es) e
  | protocol {dir seen i p j items es e} : ImportsTo w dirs dir i.path p → p ∉ seen →
      i.kind = .protocol → readJson w p = .ok j → Trace w dirs dir (p :: seen) items es e →
      Trace w dirs dir seen (.import_ i :: items) (.protocol p j i.span :: es) e
  | badIdl {dir seen i p e items} : ImportsTo w dirs dir i.path p → p ∉ seen → i.kind = .idl →
      readIdl w p = .error e → Trace w dirs dir seen (.import_ i :: items) [] (.stuck e)
  | idl {dir seen i p file decls ws items es seen' es' e} : ImportsTo w dirs dir i.path p →
      p ∉ seen → i.kind = .idl → readIdl w p = .ok (file, decls, ws) →
      Trace w dirs ((w.parent p).getD ".") (p :: seen) decls es (.finished seen') →
      Trace w dirs dir seen' items es' e →
      Trace w dirs dir seen (.import_ i :: items) (.idl p i.path file ws :: (es ++ es')) e
  | idlEnds {dir seen i p file decls ws items es e} : ImportsTo w dirs dir i.path p →
      p ∉ seen → i.kind = .idl → readIdl w p = .ok (file, decls, ws) →
      Trace w dirs ((w.parent p).getD ".") (p :: seen) decls es e →
      (∀ seen', e ≠ .finished seen') →
      Trace w dirs dir seen (.import_ i :: items) (.idl p i.path file ws :: es) e

end

/-- The types of the JSON definitions that can be converted. -/
def jsonTypes (dflt : Option String) (js : List Json) : List Schema :=
  js.flatMap fun j =>
    match jsonToSchema dflt j with
    | .ok s => (flattenSchema s).1
    | .error _ => []

/-- The type definitions in the JSON text of a protocol. -/
def protocolJsonTypes (j : Json) : List Schema :=
  jsonTypes ((j.get? "namespace").bind Json.asStr) (((j.get? "types").bind Json.asArr).getD [])

/-- The message definitions in the JSON text of a protocol. -/
def protocolJsonMessages (j : Json) : List (String × Message) :=
  match j.get? "messages" with
  | some (.obj ms) => ms.filterMap fun nj =>
      match jsonToMessage ((j.get? "namespace").bind Json.asStr) nj.2 with
      | .ok m => some (nj.1, m)
      | .error _ => none
  | _ => []

/-- The type definitions an event brings. -/
def Event.types : Event → List Schema
  | .type s .. => [s]
  | .schema _ j _ => jsonTypes none [j]
  | .protocol _ j _ => protocolJsonTypes j
  | .idl .. => []

/-- The messages an event brings. -/
def Event.messages : Event → List (String × Message)
  | .protocol _ j _ => protocolJsonMessages j
  | .idl _ _ file _ => file.messages
  | _ => []

/-- The state events act on. -/
structure Core where
  registry : Registry
  messages : List (String × Message)
  warnings : List Report

/-- The warnings of an event; those of an imported file carry its name (or, if the path has none, what
the import says). -/
def Event.reports (w : World) : Event → List Report
  | .idl p as _ ws => ws.map fun x => ⟨x, some ((w.fileName p).getD as)⟩
  | _ => []

/-- The effect of an event.  (`fuel` bounds the check of default values.) -/
def Event.run [CharTables] (w : World) (fuel : Nat) (ev : Event) (k : Core) :
    Except CompileErr Core :=
  match ev with
  | .type s span spans =>
      match k.registry.register s with
      | .error e => .error (.register e span)
      | .ok r =>
        match validateRecordFieldDefaults r.find? fuel s with
        | none => .error .timeout
        | some [] => .ok { k with registry := r }
        | some (e :: es) => .error (defaultsErr s span spans e es)
  | .schema p j span =>
      match importSchema j k.registry with
      | .error e => .error (.importFailed span (.importJson p e))
      | .ok r => .ok { k with registry := r }
  | .protocol p j span =>
      match importProtocol j k.registry with
      | .error e => .error (.importFailed span (.importJson p e))
      | .ok (r, ms) => .ok { k with registry := r, messages := extendMessages k.messages ms }
  | .idl p as file ws =>
      .ok { k with messages := extendMessages k.messages file.messages,
                   warnings := k.warnings ++ Event.reports w (.idl p as file ws) }

/-- The effect of events in order, until one fails. -/
def runEvents [CharTables] (w : World) (fuel : Nat) : List Event → Core → Except CompileErr Core
  | [], k => .ok k
  | ev :: evs, k =>
      match ev.run w fuel k with
      | .error e => .error e
      | .ok k' => runEvents w fuel evs k'

/-- The last entry for a name. -/
def lastEntry (l : List (String × Message)) (n : String) : Option Message :=
  (l.reverse.find? fun nm => nm.1 == n).map Prod.snd

/-- The warnings a compilation raises.  (`fuel` bounds the check of default values.) -/
inductive Raises [CharTables] [FloatTables] [CaseTables] (w : World) (dirs : List Path) (fuel : Nat)
    (text name : String) (dir : Path) (path : Option Path) : List Report → Prop
  /-- The file itself cannot be read. -/
  | unread {e} : parseIdl w text name = .error e → Raises w dirs fuel text name dir path []
  /-- All imports and declarations go through. -/
  | all {file decls ws es seen k} : parseIdl w text name = .ok (file, decls, ws) →
      Trace w dirs dir path.toList decls es (.finished seen) →
      runEvents w fuel es ⟨[], [], []⟩ = .ok k →
      Raises w dirs fuel text name dir path
        (ws.map (fun x => ⟨x, none⟩) ++ es.flatMap (Event.reports w))
  /-- An import fails. -/
  | stuck {file decls ws es k e} : parseIdl w text name = .ok (file, decls, ws) →
      Trace w dirs dir path.toList decls es (.stuck e) →
      runEvents w fuel es ⟨[], [], []⟩ = .ok k →
      Raises w dirs fuel text name dir path
        (ws.map (fun x => ⟨x, none⟩) ++ es.flatMap (Event.reports w))
  /-- A declaration or the content of a JSON file is rejected. -/
  | failed {file decls ws es ev k e} : parseIdl w text name = .ok (file, decls, ws) →
      Trace w dirs dir path.toList decls (es ++ [ev]) .cut →
      runEvents w fuel es ⟨[], [], []⟩ = .ok k → ev.run w fuel k = .error e →
      Raises w dirs fuel text name dir path
        (ws.map (fun x => ⟨x, none⟩) ++ es.flatMap (Event.reports w))

/-- The file refers to the name: its main schema, or one of its messages. -/
inductive FileRefersTo : IdlFile → String → Prop
  | schema {s x sp} : RefersTo s x sp → FileRefersTo (.schema s) x
  | named {ss s x sp} : s ∈ ss → RefersTo s x sp → FileRefersTo (.named ss) x
  | response {p nm x sp} : nm ∈ p.messages → RefersTo nm.2.response x sp →
      FileRefersTo (.protocol p) x
  | parameter {p nm f x sp} : nm ∈ p.messages → f ∈ nm.2.request → RefersTo f.schema x sp →
      FileRefersTo (.protocol p) x
  | error {p nm es s x sp} : nm ∈ p.messages → nm.2.errors = some es → s ∈ es →
      RefersTo s x sp → FileRefersTo (.protocol p) x

end Avdl.Spec
