import Verif.Spec.Compile
/-!
# Specification: what a compilation looks at

Of the file system, a compilation uses whether some paths exist, which file some paths stand for, and
the content of some files.
-/

namespace Avdl.Spec

/-- A question to the file system. -/
inductive Look where
  /-- Is there something at the path? -/
  | existence (p : Path)
  /-- Which file is it, with links followed? -/
  | identity (p : Path)
  /-- What is in the file? -/
  | content (p : Path)
deriving DecidableEq

/-- Two file systems answer a question in the same way. -/
def SameAnswer (w w' : World) : Look → Prop
  | .existence p => w.exists_ p = w'.exists_ p
  | .identity p => w.canonicalize p = w'.canonicalize p
  | .content p => w.read p = w'.read p

/-- Paths, parsers and the current directory are the same; the file systems may differ. -/
structure SameSystem (w w' : World) : Prop where
  join : w.join = w'.join
  parent : w.parent = w'.parent
  fileName : w.fileName = w'.fileName
  cwd : w.cwd = w'.cwd
  parse : w.parse = w'.parse
  parseJson : w.parseJson = w'.parseJson

section
variable [CharTables] [FloatTables] [CaseTables]

/-- The questions the imports among the declarations of a file of directory `dir` give rise to, those
of imported files included. -/
inductive Looked (w : World) (dirs : List Path) : Path → List DeclItem → Look → Prop
  /-- The directories are searched up to the first that has the file. -/
  | candidate {dir items i d} {k : Nat} : DeclItem.import_ i ∈ items → (dir :: dirs)[k]? = some d →
      (∀ (k' : Nat) (d' : Path), k' < k → (dir :: dirs)[k']? = some d' →
        w.exists_ (w.join d' i.path) = false) →
      Looked w dirs dir items (.existence (w.join d i.path))
  | found {dir items i q} : DeclItem.import_ i ∈ items → FoundIn w (dir :: dirs) i.path q →
      Looked w dirs dir items (.identity q)
  | file {dir items i p} : DeclItem.import_ i ∈ items → ImportsTo w dirs dir i.path p →
      Looked w dirs dir items (.content p)
  | inside {dir items i p file decls ws l} : DeclItem.import_ i ∈ items →
      ImportsTo w dirs dir i.path p → i.kind = .idl → readIdl w p = .ok (file, decls, ws) →
      Looked w dirs ((w.parent p).getD ".") decls l → Looked w dirs dir items l

/-- The questions for a text in a directory. -/
def LookedForText (w : World) (dirs : List Path) (text name : String) (dir : Path) (l : Look) :
    Prop :=
  ∃ file decls ws, parseIdl w text name = .ok (file, decls, ws) ∧ Looked w dirs dir decls l

/-- The questions for a file: itself, the directory it is in, and its imports. -/
inductive LookedForFile (w : World) (dirs : List Path) (path : Path) : Look → Prop
  | content : LookedForFile w dirs path (.content path)
  | identity : LookedForFile w dirs path (.identity path)
  | directory : LookedForFile w dirs path (.identity ((w.parent path).getD "."))
  | inside {text l} : w.read path = some text →
      LookedForText w dirs text path (fileDir w path) l → LookedForFile w dirs path l

end

end Avdl.Spec
