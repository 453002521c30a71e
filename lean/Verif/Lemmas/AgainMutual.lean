import Verif.Props.Reimport
/-!
# Example for C69: two records that refer to each other
-/

namespace Avdl.Props
open Spec

attribute [local instance] asciiTables exFloats exCases exJsonFloats

/-- A protocol with two records that refer to each other. -/
def exMutual (p : Path) : Option String :=
  if p = "a" then some "protocol P{record A{B b;}record B{A a;}}" else none

/-- A protocol of the same name that consists of an import of a document. -/
def exAgain (j : Json) (p : Path) : Option String :=
  if p = "a.avpr" then some (prettyJson j ++ "\n")
  else if p = "a" then some "protocol P{import protocol \"a.avpr\";}"
  else none

/-- A record with one field. -/
def exRecord (name field : String) (type : Json) : Json :=
  .obj [("fields", .arr [.obj [("name", .str field), ("type", type)]]),
    ("name", .str name), ("type", .str "record")]

/-- The document of the protocol with this type. -/
def exAgainDocument (type : Json) : Json :=
  .obj [("messages", .obj []), ("protocol", .str "P"), ("types", .arr [type])]

/-- The two documents. -/
def exFirst : Json := exAgainDocument (exRecord "A" "b" (exRecord "B" "a" (.str "A")))
def exSecond : Json := exAgainDocument (exRecord "B" "a" (exRecord "A" "b" (.str "B")))

theorem exMutual_checks :
    ((Builder.new.compileFile (exReimportWorld exMutual) 9 "a").1.toBool &&
    (Builder.new.convert (exReimportWorld exMutual) 9 "a").1.toBool &&
    decide (exWritten exMutual = exFirst)) = true := by decide +kernel

end Avdl.Props
