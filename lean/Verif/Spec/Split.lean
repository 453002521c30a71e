import Verif.Spec.Contexts
import Verif.Spec.CompileOk
import Verif.Lemmas.BareReader
import Mathlib.Data.List.Forall2
/-!
# Specification: moving declarations into a file of their own

Vocabulary for C66.
-/

namespace Avdl.Spec

/-- The same declaration, up to source positions. -/
inductive SameDecl : DeclItem → DeclItem → Prop
  | type {s s' span span' spans spans'} : s.bare = s'.bare →
      SameDecl (.type s span spans) (.type s' span' spans')
  | import_ {i i'} : i.kind = i'.kind → i.path = i'.path → SameDecl (.import_ i) (.import_ i')

/-- The same declarations in the same order, up to source positions. -/
def SameDecls : List DeclItem → List DeclItem → Prop := List.Forall₂ SameDecl

/-- The two files are protocols of the same name, namespace, documentation and annotations; or have
the same main schema. -/
inductive SameHeader : IdlFile → IdlFile → Prop
  | protocol {p p'} : p.name = p'.name → p.ns = p'.ns → p.doc = p'.doc → p.props = p'.props →
      SameHeader (.protocol p) (.protocol p')
  | schema {s s'} : s.bare = s'.bare → SameHeader (.schema s) (.schema s')

/-- Both lists have the same message of that name, up to source positions, or both have none. -/
def AgreeOnMessage (l l' : List (String × Message)) (n : String) : Prop :=
  (lastEntry l n).map Message.bare = (lastEntry l' n).map Message.bare

section
variable [CharTables] [FloatTables] [CaseTables]

/-- No import in the given declarations, or in a file they lead to, is of the file `p`. -/
def NeverImports (w : World) (dirs : List Path) (p : Path) (dir : Path) (items : List DeclItem) :
    Prop :=
  ∀ name text ps u i, ImportChain w dirs ⟨name, text, dir, items⟩ ps u → .import_ i ∈ u.items →
    ¬ ImportsTo w dirs u.dir i.path p

/-- The text `main` is the text `whole` with some consecutive declarations and some messages moved to
the file `p`, and an import of that file in the place of the declarations.  Both texts are
compiled as a file of directory `dir` with path `path`; the file `p` is in the same directory. -/
structure MovedOut (w : World) (dirs : List Path) (main mainName whole wholeName : String)
    (dir : Path) (path : Option Path) (p : Path) (file file' part : IdlFile)
    (before moved after decls' : List DeclItem) (i : ImportEntry) : Prop where
  readMain : ∃ ws, parseIdl w main mainName = .ok (file, before ++ .import_ i :: after, ws)
  readWhole : ∃ ws, parseIdl w whole wholeName = .ok (file', decls', ws)
  readPart : ∃ ws, readIdl w p = .ok (part, moved, ws)
  /-- The declarations of `whole` are those of `main` with those of the file `p` in the place of the
  import. -/
  decls : SameDecls decls' (before ++ moved ++ after)
  header : SameHeader file file'
  /-- The messages of `whole` are those of `main` and of the file `p`. -/
  messages : ∀ n, AgreeOnMessage file'.messages (part.messages ++ file.messages) n
  isIdl : i.kind = .idl
  leads : ImportsTo w dirs dir i.path p
  sameDir : (w.parent p).getD "." = dir
  notItself : path ≠ some p
  onlyOnce : NeverImports w dirs p dir decls'
  /-- No file `whole` imports has a message of the same name as one that is moved. -/
  noClash : ∀ es seen, Trace w dirs dir path.toList decls' es (.finished seen) →
    ∀ ev ∈ es, ∀ nm ∈ ev.messages, nm.1 ∉ part.messages.map Prod.fst

end

end Avdl.Spec
