import Verif.Ast
/-!
# Specification: where documentation may be written

The places of a file a doc comment can document, as indices of first tokens: the protocol, its
messages and their parameters, named types, fields and the variables of a field.
-/

namespace Avdl.Spec

/-- A field declaration and its variables. -/
def fieldPlaces (d : FieldDecl) : List Nat := d.start :: d.vars.map VarDecl.start

/-- A named type and, for records, its fields. -/
def namedPlaces : NamedDecl → List Nat
  | .record d => d.start :: d.fields.flatMap fieldPlaces
  | .enum d => [d.start]
  | .fixed d => [d.start]

/-- A parameter and its variable. -/
def paramPlaces (p : Param) : List Nat := [p.start, p.var.start]

/-- A message and its parameters. -/
def messagePlaces (d : MessageDecl) : List Nat := d.start :: d.params.flatMap paramPlaces

/-- An item of a protocol. -/
def bodyPlaces : BodyItem → List Nat
  | .import_ _ => []
  | .named d _ => namedPlaces d
  | .message m => messagePlaces m

/-- An item of a schema file. -/
def itemPlaces : FileItem → List Nat
  | .import_ _ => []
  | .named d _ => namedPlaces d

/-- A file. -/
def docPlaces : FileAst → List Nat
  | .protocol d => d.start :: d.body.flatMap bodyPlaces
  | .schema _ _ body => body.flatMap itemPlaces

end Avdl.Spec
