import Verif.Compiler
/-!
# What a command line says

The usual conventions, written down as relations: `--import-dir DIR` or `--import-dir=DIR` anywhere
among the positional arguments, everything after `--` is positional, and so are `-` and whatever
does not begin with a dash.
-/

namespace Avdl.Spec

/-- An argument that is not an option. -/
def Plain (a : String) : Prop := a = "-" ∨ ∀ s, a ≠ "-" ++ s

/-- A request for help: `-h`, also at the head of a group of short options, or `--help`, also with
a value. -/
inductive HelpWord : String → Prop
  | short (s : String) : HelpWord ("-h" ++ s)
  | long : HelpWord "--help"
  | longValue (s : String) : HelpWord ("--help=" ++ s)

/-- The arguments of a subcommand name these import directories and these positional arguments, in
this order. -/
inductive Says : List String → List Path → List String → Prop
  | done : Says [] [] []
  | rest (ps : List String) : Says ("--" :: ps) [] ps
  | dir (d : Path) {args ds ps} : Says args ds ps → Says ("--import-dir" :: d :: args) (d :: ds) ps
  | dirEq (d : Path) {args ds ps} : Says args ds ps →
      Says (("--import-dir=" ++ d) :: args) (d :: ds) ps
  | plain {a args ds ps} : Plain a → Says args ds ps → Says (a :: args) ds (a :: ps)

/-- The arguments of a subcommand ask for help, before anything is wrong. -/
inductive AsksHelp : List String → Prop
  | here {a} (args) : HelpWord a → AsksHelp (a :: args)
  | dir (d : Path) {args} : AsksHelp args → AsksHelp ("--import-dir" :: d :: args)
  | dirEq (d : Path) {args} : AsksHelp args → AsksHelp (("--import-dir=" ++ d) :: args)
  | plain {a args} : Plain a → AsksHelp args → AsksHelp (a :: args)

/-- The whole command line names a subcommand, with these import directories and positional
arguments for it.  A `--` before the subcommand makes all of them positional. -/
inductive Calls (name : String) : List String → List Path → List String → Prop
  | plain {args ds ps} : Plain name → Says args ds ps → Calls name (name :: args) ds ps
  | dashes (ps) : Calls name ("--" :: name :: ps) [] ps

/-- The whole command line is for a subcommand and asks for its help. -/
inductive CallsHelp (name : String) : List String → Prop
  | plain {args} : Plain name → AsksHelp args → CallsHelp name (name :: args)

/-- The command line names a subcommand. -/
inductive Names (name : String) : List String → Prop
  | plain (args) : Plain name → Names name (name :: args)
  | dashes (args) : Names name ("--" :: name :: args)

/-- A request for the version. -/
inductive VersionWord : String → Prop
  | short (s : String) : VersionWord ("-V" ++ s)
  | long : VersionWord "--version"
  | longValue (s : String) : VersionWord ("--version=" ++ s)

end Avdl.Spec
