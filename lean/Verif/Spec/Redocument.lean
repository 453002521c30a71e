import Verif.Spec.Reformat
/-!
# Texts that differ in layout and documentation only

For C68: the same tokens in the same order, with other doc comments, other comments and other white
space between them; and documents that differ in `doc` attributes only.
-/

namespace Avdl.Spec.Redocument
open Spec.Lexing Spec.Layout Spec.Reformat

/-- The tokens of a text, without the doc comments. -/
def code (ps : List Piece) : List (Kind × List Char) := (significant ps).filter fun t => t.1 ≠ .doc

/-- The two texts, up to U+001A, have the same tokens in the same order, and the same unrecognised
pieces. -/
def SameCode (text text' : String) : Prop :=
  ∃ ps ps', Pieces (cutAtSub text.toList) ps ∧ Pieces (cutAtSub text'.toList) ps' ∧
    code ps = code ps' ∧ ps.filter (fun p => p.kind.isNone) = ps'.filter (fun p => p.kind.isNone)

/-- Two files that can both not be read, or differ in layout and documentation only.  Read as JSON,
they give the same. -/
inductive SameFile (json : String → Option Json) : Option String → Option String → Prop
  | unreadable : SameFile json none none
  | read {text text'} : SameCode text text' → json text = json text' →
      SameFile json (some text) (some text')

/-- Two file systems with the same directories and files, where files differ in layout and
documentation only.  IDL files are read by the lexer and parser of the model. -/
structure Redocumented (w w' : World) : Prop where
  parse : w.parse = parseSource
  same : w' = { w with read := w'.read }
  files : ∀ p, SameFile w.parseJson (w.read p) (w'.read p)

/-- The report is about a doc comment that documents nothing. -/
def aboutDocs (r : Report) : Bool :=
  match r.warning with
  | .outOfPlaceDoc .. => true
  | _ => false

/-- The same warnings in the same order, apart from those about doc comments. -/
def SameReports (rs rs' : List Report) : Prop :=
  Reformat.SameReports (rs.filter fun r => !aboutDocs r) (rs'.filter fun r => !aboutDocs r)

/-- Where a schema, a list of schemas or a list of fields stands. -/
def schemaPlaces : List String :=
  ["types", "fields", "type", "items", "values", "request", "response", "errors"]

mutual
/-- A schema or protocol document, or a list of such, without `doc` attributes.  Default values and
custom properties are left as they are. -/
def undoc : Json → Json
  | .arr l => .arr (undocList l)
  | .obj m => .obj (undocMembers m)
  | j => j
/-- `undoc` on lists. -/
def undocList : List Json → List Json
  | [] => []
  | j :: js => undoc j :: undocList js
/-- `undoc` on the members of an object. -/
def undocMembers : JMap → JMap
  | [] => []
  | (k, v) :: m =>
      if k = "doc" then undocMembers m
      else (k, if k = "messages" then undocMessages v else if k ∈ schemaPlaces then undoc v else v)
        :: undocMembers m
/-- `undoc` on the messages of a protocol, by name. -/
def undocMessages : Json → Json
  | .obj m => .obj (undocValues m)
  | j => j
/-- `undoc` on every value. -/
def undocValues : JMap → JMap
  | [] => []
  | (k, v) :: m => (k, undoc v) :: undocValues m
end

/-- The same document up to `doc` attributes, with the same warnings. -/
def SameDocument (o o' : IdlOutput) : Prop :=
  undoc o.json = undoc o'.json ∧ SameReports o.warnings o'.warnings

/-- The same schemas, by name, up to `doc` attributes, with the same warnings. -/
def SameSchemata (o o' : SchemataOutput) : Prop :=
  o.schemas.map (fun x => (x.1, undoc x.2)) = o'.schemas.map (fun x => (x.1, undoc x.2)) ∧
    SameReports o.warnings o'.warnings

/-- Builders with the same import directories that remember the same warnings. -/
def SameBuilder (b b' : Builder) : Prop :=
  b.importDirs = b'.importDirs ∧ SameReports b.accumulated b'.accumulated

/-- Both fail for the same reason or both give the same, and the builders remember the same. -/
inductive SameOutcome {α : Type} (same : α → α → Prop) :
    Except CompileErr α × Builder → Except CompileErr α × Builder → Prop
  | ok {a a' b b'} : same a a' → SameBuilder b b' → SameOutcome same (.ok a, b) (.ok a', b')
  | error {e e' b b'} : SameReason e e' → SameBuilder b b' →
      SameOutcome same (.error e, b) (.error e', b')

end Avdl.Spec.Redocument
