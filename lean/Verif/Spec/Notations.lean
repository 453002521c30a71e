import Mathlib.Logic.Relation
import Verif.Spec.JsonValue
import Verif.Spec.Redocument
import Verif.Spec.Source
/-!
# Different notations for the same

For C71: parse trees that say the same in different notations.  Each rule below replaces one
notation by another; `SameTree` applies rules at any number of places of a tree, and `Equivalent` does
so repeatedly, in both directions, and leaves out repeated imports.  Positions are of no importance.
-/

namespace Avdl.Spec.Notations
open Spec

/-! ## Literals and names -/

mutual
/-- A JSON value without positions. -/
def spelling : JVal → JVal
  | .null => .null
  | .true => .true
  | .false => .false
  | .str raw => .str raw
  | .int text _ => .int text none
  | .float text _ => .float text none
  | .arr l => .arr (spellings l)
  | .obj m => .obj (spellingPairs m)
/-- JSON values without positions. -/
def spellings : List JVal → List JVal
  | [] => []
  | v :: vs => spelling v :: spellings vs
/-- Members of an object without positions. -/
def spellingPairs : List (String × JVal) → List (String × JVal)
  | [] => []
  | (k, v) :: ps => (k, spelling v) :: spellingPairs ps
end

section
variable [FloatTables]

/-- JSON values that are written in the same way, or denote the same value.  (`-2^63` has to be
written in decimal, see C18.) -/
def SameValue (v v' : JVal) : Prop :=
  spelling v = spelling v' ∨ ∃ j, JsonMeans v j ∧ JsonMeans v' j ∧ NoMinHex v ∧ NoMinHex v'

/-- String literals that are written in the same way, or denote the same string. -/
def SameString (raw raw' : String) : Prop :=
  raw = raw' ∨ ∃ s, StringMeans raw s ∧ StringMeans raw' s

/-- Sizes, precisions and scales that are written in the same way, or denote the same number. -/
def SameNumeral (text text' : String) : Prop :=
  text = text' ∨ ∃ n n' mag, IntegerToken text n false false mag ∧ IntegerToken text' n' false false mag

/-- A name without backticks. -/
def plain (name : String) : String := String.ofList (name.toList.filter (· ≠ '`'))

/-- The name, or its last part, is `null`. -/
def CalledNull (name : String) : Prop :=
  (plain name).toList = "null".toList ∨ ∃ x, (plain name).toList = x ++ ".null".toList

/-- Names that differ in backticks only. -/
def SameName (a b : String) : Prop := plain a = plain b

/-! ## Annotations -/

/-- The same annotation. -/
def SameAnnot (a a' : Annot) : Prop := SameName a.name a'.name ∧ SameValue a.value a'.value

/-- The same annotations. -/
abbrev SameAnnots : List Annot → List Annot → Prop := List.Forall₂ SameAnnot

/-- None of the annotations has this name. -/
def NoneCalled (name : String) (as : List Annot) : Prop := ∀ a ∈ as, plain a.name ≠ name

/-- The annotation `@name(value)`. -/
def Says (a : Annot) (name : String) (value : Json) : Prop :=
  plain a.name = name ∧ JsonMeans a.value value ∧ NoMinHex a.value

/-! ## Types -/

/-- The same type keyword: `decimal(p)` is `decimal(p, 0)`. -/
inductive SameKeyword : PrimTok → PrimTok → Prop
  | same {p} : SameKeyword p p
  | decimal {p p' sp sp' s s' ss ss'} : SameNumeral p p' → SameNumeral s s' →
      SameKeyword (.decimal p sp (some (s, ss))) (.decimal p' sp' (some (s', ss')))
  | integer {p p' sp sp'} : SameNumeral p p' →
      SameKeyword (.decimal p sp none) (.decimal p' sp' none)
  | noScale {p sp z sz n} : IntegerToken z n false false 0 →
      SameKeyword (.decimal p sp none) (.decimal p sp (some (z, sz)))

/-- The keywords of logical types without parameters, with the logical types and the types they
annotate. -/
def logicalKeywords : List (PrimTok × String × Prim) :=
  [(.date, "date", .int), (.time, "time-millis", .int), (.timestamp, "timestamp-millis", .long),
   (.localTimestamp, "local-timestamp-millis", .long), (.uuid, "uuid", .string)]

/-- Where a type stands: where an optional type has to be written as such; where its default, if
any, is `null`; or where it has another default. -/
inductive Place where
  | exact
  | nullFirst
  | nullLast
deriving DecidableEq

/-- The members of the union that an optional type stands for. -/
def optionalUnion : Place → FullType → FullType → List FullType
  | .nullLast, null, t => [t, null]
  | _, null, t => [null, t]

mutual
/-- The same type with annotations. -/
inductive SameType : Place → FullType → FullType → Prop
  | annotated {pl as as' t t' sp sp'} : SameAnnots as as' → SamePlain .exact t t' →
      SameType pl (.mk as t sp) (.mk as' t' sp')
  /-- without annotations, `T?` may stand for a union -/
  | plain {pl t t' sp sp'} : SamePlain pl t t' → SameType pl (.mk [] t sp) (.mk [] t' sp')
  /-- the keyword of a logical type is an annotated primitive type -/
  | keyword {pl k l base a as optional sp sp' sp'' sp'''} : (k, l, base) ∈ logicalKeywords →
      Says a "logicalType" (.str l) → NoneCalled "logicalType" as →
      SameType pl (.mk as (.prim k optional sp) sp')
        (.mk (a :: as) (.prim (.prim base) optional sp'') sp''')
  | decimal {pl ptext stext n n' p s a b c as optional ps ss sp sp' sp'' sp'''} :
      IntegerToken ptext n false false p → IntegerToken stext n' false false s →
      0 < p → s ≤ p → p < 2 ^ 31 →
      Says a "logicalType" (.str "decimal") → Says b "precision" (.num (.int p)) →
      Says c "scale" (.num (.int s)) →
      NoneCalled "logicalType" as → NoneCalled "precision" as → NoneCalled "scale" as →
      SameType pl (.mk as (.prim (.decimal ptext ps (some (stext, ss))) optional sp) sp')
        (.mk (a :: b :: c :: as) (.prim (.prim .bytes) optional sp'') sp''')
/-- The same type without annotations. -/
inductive SamePlain : Place → PlainType → PlainType → Prop
  | array {pl t t'} : SameType .nullFirst t t' → SamePlain pl (.array t) (.array t')
  | map {pl t t'} : SameType .nullFirst t t' → SamePlain pl (.map t) (.map t')
  | union {pl ts ts'} : SameTypes ts ts' → SamePlain pl (.union ts) (.union ts')
  | prim {pl p p' optional sp sp'} : SameKeyword p p' →
      SamePlain pl (.prim p optional sp) (.prim p' optional sp')
  | named {pl i i' sp sp' optional} : SameName i i' →
      SamePlain pl (.named i sp optional) (.named i' sp' optional)
  /-- an optional type is a union with `null` -/
  | optional {pl p sp sp' s s' s''} : pl ≠ .exact → p ≠ .prim .null →
      SamePlain pl (.prim p true sp) (.union (optionalUnion pl
        (.mk [] (.prim (.prim .null) false sp') s) (.mk [] (.prim p false s') s'')))
  | optionalName {pl i sp sp' s s' s''} : pl ≠ .exact → ¬ CalledNull i →
      SamePlain pl (.named i sp true) (.union (optionalUnion pl
        (.mk [] (.prim (.prim .null) false sp') s) (.mk [] (.named i s' false) s'')))
/-- The same members of a union. -/
inductive SameTypes : List FullType → List FullType → Prop
  | nil : SameTypes [] []
  | cons {t t' ts ts'} : SameType .nullFirst t t' → SameTypes ts ts' →
      SameTypes (t :: ts) (t' :: ts')
end

mutual
/-- There are no annotations in the type. -/
def Unannotated : FullType → Prop
  | .mk as t _ => as = [] ∧ PlainUnannotated t
/-- There are no annotations in the type. -/
def PlainUnannotated : PlainType → Prop
  | .array t => Unannotated t
  | .map t => Unannotated t
  | .union ts => AllUnannotated ts
  | .prim .. => True
  | .named .. => True
/-- There are no annotations in the types. -/
def AllUnannotated : List FullType → Prop
  | [] => True
  | t :: ts => Unannotated t ∧ AllUnannotated ts
end

/-! ## Variables -/

/-- The same default value, or none. -/
inductive SameDefault : Option JVal → Option JVal → Prop
  | none : SameDefault none none
  | some {v v'} : SameValue v v' → SameDefault (some v) (some v')

/-- The same name, annotations and default value. -/
structure SameVar (v v' : VarDecl) : Prop where
  annots : SameAnnots v.annots v'.annots
  name : SameName v.ident v'.ident
  default : SameDefault v.default v'.default

/-- What a default value means for an optional type. -/
def placeOf : Option JVal → Place
  | none => .nullFirst
  | some .null => .nullFirst
  | some _ => .nullLast

/-- The type of these variables may stand at this place. -/
def Fits (pl : Place) (vs : List VarDecl) : Prop := pl = .exact ∨ ∀ v ∈ vs, placeOf v.default = pl

/-- The same declaration of fields. -/
structure SameField (d d' : FieldDecl) : Prop where
  type : ∃ pl, Fits pl d.vars ∧ SameType pl d.type d'.type
  vars : List.Forall₂ SameVar d.vars d'.vars

/-- The names of the fields. -/
def fieldNames (ds : List FieldDecl) : List String :=
  (ds.flatMap FieldDecl.vars).map fun v => plain v.ident

/-- The same fields: `T a, b;` is `T a; T b;`. -/
inductive SameFields : List FieldDecl → List FieldDecl → Prop
  | each {ds ds'} : List.Forall₂ SameField ds ds' → SameFields ds ds'
  | split {x y start start' start'' type vs vs'} : Unannotated type →
      (fieldNames (x ++ ⟨start, type, vs ++ vs'⟩ :: y)).Nodup →
      SameFields (x ++ ⟨start, type, vs ++ vs'⟩ :: y)
        (x ++ ⟨start', type, vs⟩ :: ⟨start'', type, vs'⟩ :: y)

/-! ## Declarations -/

/-- The same annotations and name: a namespace may be an annotation or part of the name. -/
inductive SameHead : List Annot → String → List Annot → String → Prop
  | same {as as' i i'} : SameAnnots as as' → SameName i i' → SameHead as i as' i'
  | dotted {x y a ns i i'} : Says a "namespace" (.str ns) → NoneCalled "namespace" x →
      NoneCalled "namespace" y → '.' ∉ (plain i).toList → plain i' = ns ++ "." ++ plain i →
      SameHead (x ++ a :: y) i (x ++ y) i'

/-- The same names, whatever the positions. -/
abbrev SameNames : List (String × Option Span) → List (String × Option Span) → Prop :=
  List.Forall₂ fun a b => SameName a.1 b.1

/-- The same named type. -/
inductive SameNamed : NamedDecl → NamedDecl → Prop
  | record {d d' : RecordDecl} : SameHead d.annots d.ident d'.annots d'.ident →
      d.isError = d'.isError → SameFields d.fields d'.fields → SameNamed (.record d) (.record d')
  | enum {d d' : EnumDecl} : SameHead d.annots d.ident d'.annots d'.ident →
      SameNames d.symbols d'.symbols → SameNames d.default.toList d'.default.toList →
      SameNamed (.enum d) (.enum d')
  | fixed {d d' : FixedDecl} : SameHead d.annots d.ident d'.annots d'.ident →
      SameNumeral d.size d'.size → SameNamed (.fixed d) (.fixed d')

/-- The same import. -/
def SameImport (i i' : ImportStmt) : Prop := i.kind = i'.kind ∧ SameString i.location i'.location

/-- The same parameter. -/
structure SameParam (p p' : Param) : Prop where
  type : ∃ pl, Fits pl [p.var] ∧ SameType pl p.type p'.type
  var : SameVar p.var p'.var

/-- The same result type, of a message with these annotations: `void` is `null`. -/
inductive SameResult (as : List Annot) : Option PlainType → Option PlainType → Prop
  | void : SameResult as none none
  | type {t t' pl} : pl = .exact ∨ pl = .nullFirst ∧ as = [] → SamePlain pl t t' →
      SameResult as (some t) (some t')
  | null {sp} : SameResult as none (some (.prim (.prim .null) false sp))

/-- The same message. -/
structure SameMessage (m m' : MessageDecl) : Prop where
  annots : SameAnnots m.annots m'.annots
  result : SameResult m.annots m.result m'.result
  name : SameName m.ident m'.ident
  params : List.Forall₂ SameParam m.params m'.params
  oneway : m.oneway = m'.oneway
  errors : SameNames m.errors m'.errors

/-- The same part of a protocol. -/
inductive SameBodyItem : BodyItem → BodyItem → Prop
  | import_ {i i'} : SameImport i i' → SameBodyItem (.import_ i) (.import_ i')
  | named {d d' sp sp'} : SameNamed d d' → SameBodyItem (.named d sp) (.named d' sp')
  | message {m m'} : SameMessage m m' → SameBodyItem (.message m) (.message m')

/-- The same part of a schema file. -/
inductive SameFileItem : FileItem → FileItem → Prop
  | import_ {i i'} : SameImport i i' → SameFileItem (.import_ i) (.import_ i')
  | named {d d' sp sp'} : SameNamed d d' → SameFileItem (.named d sp) (.named d' sp')

/-- The same main type, or none. -/
inductive SameMain : Option FullType → Option FullType → Prop
  | none : SameMain none none
  | some {t t'} : SameType .nullFirst t t' → SameMain (some t) (some t')

/-- The same file, with rules applied at any number of places. -/
inductive SameTree : FileAst → FileAst → Prop
  | protocol {d d' : ProtocolDecl} : SameHead d.annots d.ident d'.annots d'.ident →
      List.Forall₂ SameBodyItem d.body d'.body → SameTree (.protocol d) (.protocol d')
  | schema {ns ns' main main' body body'} : ns.map plain = ns'.map plain → SameMain main main' →
      List.Forall₂ SameFileItem body body' → SameTree (.schema ns main body) (.schema ns' main' body')

/-- The second file imports once more what is imported before. -/
inductive Repeated : FileAst → FileAst → Prop
  | protocol {d : ProtocolDecl} {x y z i i'} : SameString i.location i'.location →
      Repeated (.protocol { d with body := x ++ .import_ i :: y ++ z })
        (.protocol { d with body := x ++ .import_ i :: y ++ .import_ i' :: z })
  | schema {ns main x y z i i'} : SameString i.location i'.location →
      Repeated (.schema ns main (x ++ .import_ i :: y ++ z))
        (.schema ns main (x ++ .import_ i :: y ++ .import_ i' :: z))

/-- The two files say the same. -/
abbrev Equivalent : FileAst → FileAst → Prop :=
  Relation.EqvGen fun ast ast' => SameTree ast ast' ∨ Repeated ast ast'

/-! ## Texts and files -/

/-- The same text, or two texts that say the same and have the same unrecognised pieces. -/
def SameText (text text' : String) : Prop :=
  text = text' ∨ ∀ file, ∃ s s', parseSource file text = some s ∧ parseSource file text' = some s' ∧
    Equivalent s.ast s'.ast ∧ s.lexerErrors.map LexError.text = s'.lexerErrors.map LexError.text

/-- The second text has one more import of what it has imported before. -/
def ImportsAgain (text text' : String) : Prop :=
  ∀ file, ∃ s s' t t', parseSource file text = some s ∧ parseSource file text' = some s' ∧
    SameTree s.ast t ∧ Repeated t t' ∧ SameTree s'.ast t' ∧
    s.lexerErrors.map LexError.text = s'.lexerErrors.map LexError.text

/-- Two files that can both not be read, or say the same.  Read as JSON, they give the same. -/
inductive SameFile (json : String → Option Json) : Option String → Option String → Prop
  | unreadable : SameFile json none none
  | read {text text'} : SameText text text' → json text = json text' →
      SameFile json (some text) (some text')

/-- Two file systems with the same directories and files, where files may use different notations.
IDL files are read by the lexer and parser of the model. -/
structure Rewritten (w w' : World) : Prop where
  parse : w.parse = parseSource
  same : w' = { w with read := w'.read }
  files : ∀ p, SameFile w.parseJson (w.read p) (w'.read p)

end

end Avdl.Spec.Notations
