import Verif.Compiler
/-!
# Texts and files

For C74: no file imports the compiled one.
-/

namespace Avdl.Spec.TextOfFile

variable [CharTables] [FloatTables] [CaseTables]

/-- None of the imports among the declarations of a file in a directory is the file `q`. -/
def ImportsNot (w : World) (dirs : List Path) (q : Path) (decls : List DeclItem) (dir : Path) : Prop :=
  ∀ i, DeclItem.import_ i ∈ decls → resolveImport w dirs i.path dir ≠ .ok q

/-- Neither the text nor any file imports `q`. -/
structure NotImported (w : World) (dirs : List Path) (q : Path) (text name : String) (dir : Path) :
    Prop where
  text : ∀ file decls ws, parseIdl w text name = .ok (file, decls, ws) → ImportsNot w dirs q decls dir
  files : ∀ p t file decls ws, w.read p = some t → parseIdl w t p = .ok (file, decls, ws) →
    ImportsNot w dirs q decls ((w.parent p).getD ".")

/-- The directory of a file. -/
def directory (w : World) (path : Path) : Path :=
  (w.canonicalize ((w.parent path).getD ".")).getD ((w.parent path).getD ".")

end Avdl.Spec.TextOfFile
