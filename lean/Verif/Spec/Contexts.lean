import Verif.Contexts
import Verif.Spec.Positions
import Verif.Spec.Where
/-!
# Specification: what the contexts of an error say

The contexts of an error name the files on the way from the compiled file to the place of the error:
each is imported by the one before.  Vocabulary for C64.
-/

namespace Avdl.Spec

/-- A file with its name, text, the directory its imports are relative to, and its declarations. -/
structure SourceFile where
  name : String
  text : String
  dir : Path
  items : List DeclItem

/-- The text gives the file at its end, plain or between backticks. -/
def GivesFile (text file : String) : Prop :=
  ∃ words, text = words ++ " " ++ file ∨ text = words ++ " `" ++ file ++ "`"

section
variable [CharTables] [FloatTables] [CaseTables]

/-- The file `p`, imported as IDL. -/
def ImportedFile (w : World) (p : Path) (t : SourceFile) : Prop :=
  t.name = p ∧ w.read p = some t.text ∧ t.dir = (w.parent p).getD "." ∧
  ∃ file ws, parseIdl w t.text p = .ok (file, t.items, ws)

/-- The file has an IDL import of `p`. -/
def HasImport (w : World) (dirs : List Path) (s : SourceFile) (p : Path) : Prop :=
  ∃ i, .import_ i ∈ s.items ∧ i.kind = .idl ∧ ImportsTo w dirs s.dir i.path p

/-- From the first file, the listed files are imported one by another; the last of them is the second
file. -/
inductive ImportChain (w : World) (dirs : List Path) : SourceFile → List Path → SourceFile → Prop
  | here {s} : ImportChain w dirs s [] s
  | into {s p t ps u} : HasImport w dirs s p → ImportedFile w p t → ImportChain w dirs t ps u →
      ImportChain w dirs s (p :: ps) u

/-- The error is about something in the file: it is a failing import of the file, reported at the word
`import`; or a declaration of the file whose name cannot be used, reported at its first word;
or the default values of a declaration of the file, each reported at its first token; or an
error in the text of the file. -/
def ErrorIn (file text : String) : CompileErr → Prop
  | .importFailed span _ => ∃ s, span = some s ∧ s.file = file ∧ Spells text.toList s "import".toList
  | .register _ span => ∃ s word, span = some s ∧ s.file = file ∧ Spells text.toList s word.toList ∧
      word ∈ declarationStarts
  | .invalidDefaults _ _ span related =>
      (∃ s word, span = some s ∧ s.file = file ∧ Spells text.toList s word) ∧
      ∀ y ∈ related, y.2.2.file = file ∧ ∃ word, Spells text.toList y.2.2 word
  | .syntaxError name => name = file
  | .read name m => name = file ∧ FaultAt file text m
  | _ => False

/-- The contexts explain how the compilation of the file came to the error.  `seen` is the path of the
file, if it has one. -/
inductive ErrorExplained (w : World) (dirs : List Path) (text name : String) (dir : Path)
    (seen : List Path) : List Context → CompileErr → Prop
  /-- The text of the compiled file is not IDL. -/
  | syntaxError : w.parse name text = none →
      ErrorExplained w dirs text name dir seen [.source] (.syntaxError name)
  /-- The compiled file violates a rule of IDL. -/
  | rule {m} : parseIdl w text name = .error (.read name m) → FaultAt name text m →
      ErrorExplained w dirs text name dir seen [.source, .walk name] (.read name m)
  /-- An error in a declaration or an import of the last file. -/
  | inside {file decls ws ps u e} : parseIdl w text name = .ok (file, decls, ws) →
      ImportChain w dirs ⟨name, text, dir, decls⟩ ps u → (seen ++ ps).Nodup →
      ErrorIn u.name u.text e → (∀ n, e ≠ .syntaxError n) → (∀ n m, e ≠ .read n m) →
      ErrorExplained w dirs text name dir seen (ps.map .nested) e
  /-- The last file imports a file that cannot be read. -/
  | unreadable {file decls ws ps u p} : parseIdl w text name = .ok (file, decls, ws) →
      ImportChain w dirs ⟨name, text, dir, decls⟩ ps u → (seen ++ ps ++ [p]).Nodup →
      HasImport w dirs u p → w.read p = none →
      ErrorExplained w dirs text name dir seen (ps.map .nested ++ [.readImported p]) (.unreadable p)
  /-- The last file imports a file that is not IDL. -/
  | importSyntax {file decls ws ps u p t} : parseIdl w text name = .ok (file, decls, ws) →
      ImportChain w dirs ⟨name, text, dir, decls⟩ ps u → (seen ++ ps ++ [p]).Nodup →
      HasImport w dirs u p → w.read p = some t → w.parse p t = none →
      ErrorExplained w dirs text name dir seen (ps.map .nested ++ [.parseImported p]) (.syntaxError p)
  /-- The last file imports a file that violates a rule of IDL. -/
  | importRule {file decls ws ps u p t m} : parseIdl w text name = .ok (file, decls, ws) →
      ImportChain w dirs ⟨name, text, dir, decls⟩ ps u → (seen ++ ps ++ [p]).Nodup →
      HasImport w dirs u p → w.read p = some t → FaultAt p t m →
      ErrorExplained w dirs text name dir seen (ps.map .nested ++ [.parseImported p, .walk p]) (.read p m)
  /-- Names that are nowhere defined. -/
  | undefined {xs} : ErrorExplained w dirs text name dir seen [] (.undefined xs)

end

end Avdl.Spec
