import Verif.Spec.Compile
import Verif.Parser
import Verif.Spec.Source
import Verif.Spec.SourceSpans
/-!
# Specification: positions in the errors of a compilation
-/

namespace Avdl.Spec

/-- The word, in some namespace, stands for the full name. -/
def Writes (word full : String) : Prop :=
  ∃ encl name ns, ReferenceName encl (identifierText word) name ns ∧ full = makeFullName name ns

/-- The texts of a compilation: the compiled text under its name, and the files. -/
def TextOf (w : World) (text name file content : String) : Prop :=
  (file = name ∧ content = text) ∨ w.read file = some content

/-- In one of the texts, the span covers a word that stands for the name. -/
def PointsAt (w : World) (text name : String) (s : Span) (full : String) : Prop :=
  ∃ content word, TextOf w text name s.file content ∧ Spells content.toList s word.toList ∧
    Writes word full

/-- In one of the texts, the span covers the first token of a type declaration. -/
def PointsAtDeclaration (w : World) (text name : String) (s : Span) : Prop :=
  ∃ content word, TextOf w text name s.file content ∧ Spells content.toList s word.toList ∧
    word ∈ declarationStarts

/-- In one of the texts, the span covers the word. -/
def PointsAtWord (w : World) (text name : String) (s : Span) (word : String) : Prop :=
  ∃ content, TextOf w text name s.file content ∧ Spells content.toList s word.toList

/-- In one of the texts there is a record declaration for the type name, with a field of that name that
has a default value; and the span covers the first token of the value. -/
def PointsAtDefault [CharTables] [FloatTables] [CaseTables] (w : World) (text name : String)
    (type field : String) (s : Span) : Prop :=
  ∃ content src d pos v j, TextOf w text name s.file content ∧
    parseSource s.file content = some src ∧ .named (.record d) pos ∈ sourceDecls src.ast ∧
    (∃ encl n ns, DeclaredName encl (stringAnnotation d.annots "namespace")
      (identifierText d.ident) n ns ∧ type = makeFullName n ns) ∧
    v ∈ d.fields.flatMap FieldDecl.vars ∧ identifierText v.ident = field ∧ v.default = some j ∧
    Spells content.toList s (valueStart j).toList

/-- The message refers to the name. -/
inductive MessageRefersTo : Message → String → Option Span → Prop
  | response {m x sp} : RefersTo m.response x sp → MessageRefersTo m x sp
  | parameter {m f x sp} : f ∈ m.request → RefersTo f.schema x sp → MessageRefersTo m x sp
  | error {m es s x sp} : m.errors = some es → s ∈ es → RefersTo s x sp → MessageRefersTo m x sp

/-- One of the JSON files refers to the name. -/
def JsonMentions (w : World) (files : List Path) (x : String) : Prop :=
  ∃ path ∈ files, ∃ j, readJson w path = .ok j ∧
    ((∃ t ∈ jsonTypes none [j] ++ protocolJsonTypes j, RefersTo t x none) ∨
      ∃ nm ∈ protocolJsonMessages j, MessageRefersTo nm.2 x none)

/-- A name is reported at a position where it is written, or without position if it is in one
of the JSON files. -/
def Reported (w : World) (files : List Path) (text name : String) (x : String × Option Span) : Prop :=
  match x.2 with
  | some s => PointsAt w text name s x.1
  | none => JsonMentions w files x.1

end Avdl.Spec
