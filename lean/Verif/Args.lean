import Verif.Cli
import Verif.JsonText
/-!
# Command line arguments and the entry point

Model of /repo/src/main.rs 21-185.  The arguments are cut up by the crate `lexopt` 0.3.2
(/repo/Cargo.lock 355), whose source is not part of /repo; the model follows its documented
behaviour.  Simplifications: arguments are strings (an argument that is not UTF-8 is an error in
the code), and error messages are kept in structured form.
-/

namespace Avdl

/-! ## `lexopt` -/

/-- `lexopt::Arg`. -/
inductive Arg where
  | short (c : Char)
  | long (name : String)
  | value (v : String)
deriving DecidableEq, Repr

/-- `lexopt::Error`, as far as it occurs here. -/
inductive ArgErr where
  | unexpectedValue (value : String)
  | missingValue
  | missingInput
  | unexpected (a : Arg)
  | timeout
deriving DecidableEq, Repr

/-- The state of `lexopt::Parser` between arguments: nothing, the value of a `--name=value` not
yet asked for, the rest of a group of short options, or after `--`. -/
inductive ArgState where
  | start
  | pending (value : List Char)
  | shorts (rest : List Char)
  | finished
deriving DecidableEq, Repr

/-- `lexopt::Parser` without the program name. -/
structure ArgParser where
  state : ArgState
  args : List String
deriving DecidableEq, Repr

/-- A text cut at the first `=`. -/
def cutAtEq : List Char → List Char × Option (List Char)
  | [] => ([], none)
  | c :: cs => if c = '=' then ([], some cs) else (c :: (cutAtEq cs).1, (cutAtEq cs).2)

/-- The state after an option with or without `=value`. -/
def pendingState : Option (List Char) → ArgState
  | none => .start
  | some v => .pending v

/-- `lexopt::Parser::next` at the beginning of an argument. -/
def nextWord : List String → Option (Arg × ArgParser)
  | [] => none
  | a :: as =>
      match a.toList with
      | ['-', '-'] =>
          match as with
          | [] => none
          | b :: bs => some (.value b, ⟨.finished, bs⟩)
      | '-' :: '-' :: body =>
          some (.long (String.ofList (cutAtEq body).1), ⟨pendingState (cutAtEq body).2, as⟩)
      | '-' :: c :: cs => some (.short c, ⟨.shorts cs, as⟩)
      | _ => some (.value a, ⟨.start, as⟩)

/-- `lexopt::Parser::next`, called at /repo/src/main.rs 70, 102 and 147. -/
def ArgParser.next (p : ArgParser) : Except ArgErr (Option (Arg × ArgParser)) :=
  match p.state with
  | .pending v => .error (.unexpectedValue (String.ofList v))
  | .shorts ('=' :: cs) => .error (.unexpectedValue (String.ofList cs))
  | .shorts (c :: cs) => .ok (some (.short c, ⟨.shorts cs, p.args⟩))
  | .finished =>
      match p.args with
      | [] => .ok none
      | a :: as => .ok (some (.value a, ⟨.finished, as⟩))
  | .shorts [] | .start => .ok (nextWord p.args)

/-- `lexopt::Parser::value`, called at /repo/src/main.rs 73 and 105. -/
def ArgParser.value (p : ArgParser) : Except ArgErr (String × ArgParser) :=
  match p.state with
  | .pending v => .ok (String.ofList v, ⟨.start, p.args⟩)
  | .shorts ('=' :: cs) => .ok (String.ofList cs, ⟨.start, p.args⟩)
  | .shorts (c :: cs) => .ok (String.ofList (c :: cs), ⟨.start, p.args⟩)
  | .shorts [] | .start =>
      match p.args with
      | [] => .error .missingValue
      | a :: as => .ok (a, ⟨.start, as⟩)
  | .finished =>
      match p.args with
      | [] => .error .missingValue
      | a :: as => .ok (a, ⟨.finished, as⟩)

/-! ## The arguments of the subcommands -/

/-- What comes of the arguments of a subcommand; `help` is the exit at /repo/src/main.rs 78
and 110. -/
inductive Parsed (α : Type) where
  | ok (a : α)
  | help
  | error (e : ArgErr)
deriving DecidableEq, Repr

/-- The loop of `parse_idl_args`, /repo/src/main.rs 70-85, and of `parse_idl2schemata_args`, lines
102-117: import directories and positional arguments.  The first argument is fuel. -/
def argLoop : Nat → ArgParser → List Path → List String → Parsed (List Path × List String)
  | 0, _, _, _ => .error .timeout
  | n + 1, p, dirs, positionals =>
      match p.next with
      | .error e => .error e
      | .ok none => .ok (dirs, positionals)
      | .ok (some (.value v, q)) => argLoop n q dirs (positionals ++ [v])
      | .ok (some (.short c, _)) => if c = 'h' then .help else .error (.unexpected (.short c))
      | .ok (some (.long name, q)) =>
          if name = "import-dir" then
            match q.value with
            | .error e => .error e
            | .ok (d, q') => argLoop n q' (dirs ++ [d]) positionals
          else if name = "help" then .help
          else .error (.unexpected (.long name))

/-- `IdlArgs`, /repo/src/main.rs 52-56. -/
structure IdlArgs where
  input : Option String
  output : Option String
  importDirs : List Path
deriving DecidableEq, Repr

/-- `Idl2schemataArgs`, /repo/src/main.rs 59-63. -/
structure Idl2schemataArgs where
  input : String
  outdir : Option Path
  importDirs : List Path
deriving DecidableEq, Repr

/-- `parse_idl_args`, /repo/src/main.rs 66-95. -/
def parseIdlArgs (p : ArgParser) : Parsed IdlArgs :=
  match argLoop (p.args.length + 1) p [] [] with
  | .ok (dirs, positionals) => .ok ⟨positionals[0]?, positionals[1]?, dirs⟩
  | .help => .help
  | .error e => .error e

/-- `parse_idl2schemata_args`, /repo/src/main.rs 98-133. -/
def parseIdl2schemataArgs (p : ArgParser) : Parsed Idl2schemataArgs :=
  match argLoop (p.args.length + 1) p [] [] with
  | .ok (dirs, positionals) =>
      match positionals[0]? with
      | none => .error .missingInput
      | some input => .ok ⟨input, positionals[1]?, dirs⟩
  | .help => .help
  | .error e => .error e

/-! ## The entry point -/

/-- `MAIN_HELP`, /repo/src/main.rs 21-31. -/
def mainHelp : String :=
"avdl - Avro IDL compiler

Usage: avdl <COMMAND>

Commands:
  idl           Compile an Avro IDL file to protocol (.avpr) or schema (.avsc) JSON
  idl2schemata  Extract individual .avsc schema files from an Avro IDL protocol

Options:
  -h, --help       Print help
  -V, --version    Print version"

/-- `IDL_HELP`, /repo/src/main.rs 33-38. -/
def idlHelp : String :=
"Usage: avdl idl [OPTIONS] [INPUT] [OUTPUT]

Options:
      --import-dir <DIR>  Additional directories to search for imports (repeatable)
  -h, --help              Print help"

/-- `IDL2SCHEMATA_HELP`, /repo/src/main.rs 40-45. -/
def idl2schemataHelp : String :=
"Usage: avdl idl2schemata [OPTIONS] INPUT [OUTDIR]

Options:
      --import-dir <DIR>  Additional directories to search for imports (repeatable)
  -h, --help              Print help"

/-- Messages on standard error. -/
inductive StderrLine where
  | warning (r : Report)
  | failed (e : CliErr)
  | badArgument (e : ArgErr)
  | noSubcommand
  | unknownSubcommand (name : String)

/-- What the process does to the outside, with the texts written. -/
inductive Out where
  | stdout (text : String)
  | stderr (m : StderrLine)
  | createDir (path : Path)
  | writeFile (path : Path) (text : String)

/-- A finished process: exit status and effects. -/
structure Process where
  status : Nat
  effects : List Out

/-- The text of a written document, /repo/src/main.rs 225, 283, 287 and 308-320. -/
def writtenText [JsonFloats] (content : Json) (newline : Bool) : String :=
  if newline then prettyJson content ++ "\n" else prettyJson content

/-- The effects of a subcommand as texts. -/
def Effect.out [JsonFloats] : Effect → Out
  | .stderr r => .stderr (.warning r)
  | .stdout j newline => .stdout (writtenText j newline)
  | .createDir p => .createDir p
  | .writeFile p j newline => .writeFile p (writtenText j newline)

/-- The end of `main`: a returned error is printed, and the status is 0 or 1. -/
def finishRun [JsonFloats] (r : Except CliErr Unit × List Effect) : Process :=
  match r.1 with
  | .ok () => ⟨0, r.2.map Effect.out⟩
  | .error e => ⟨1, r.2.map Effect.out ++ [.stderr (.failed e)]⟩

section
variable [CharTables] [FloatTables] [CaseTables] [JsonFloats]

/-- The subcommands, /repo/src/main.rs 171-184, on the arguments that are left. -/
def runSubcommand (w : World) (sh : Shell) (fuel : Nat) (name : String) (p : ArgParser) :
    Process :=
  if name = "idl" then
    match parseIdlArgs p with
    | .ok a => finishRun (runIdl w sh fuel a.input a.output a.importDirs)
    | .help => ⟨0, [.stdout (idlHelp ++ "\n")]⟩
    | .error e => ⟨1, [.stderr (.badArgument e)]⟩
  else if name = "idl2schemata" then
    match parseIdl2schemataArgs p with
    | .ok a => finishRun (runIdl2schemata w sh fuel a.input a.outdir a.importDirs)
    | .help => ⟨0, [.stdout (idl2schemataHelp ++ "\n")]⟩
    | .error e => ⟨1, [.stderr (.badArgument e)]⟩
  else ⟨2, [.stderr (.unknownSubcommand name)]⟩

/-- `main`, /repo/src/main.rs 139-185, on the arguments after the program name. -/
def runMain (w : World) (sh : Shell) (fuel : Nat) (args : List String) : Process :=
  match ArgParser.next ⟨.start, args⟩ with
  | .ok (some (.value name, p)) => runSubcommand w sh fuel name p
  | .ok (some (.short c, _)) =>
      if c = 'h' then ⟨0, [.stdout (mainHelp ++ "\n")]⟩
      else if c = 'V' then ⟨0, [.stdout "avdl 0.1.10+1.12.1\n"]⟩
      else ⟨2, [.stderr (.badArgument (.unexpected (.short c)))]⟩
  | .ok (some (.long name, _)) =>
      if name = "help" then ⟨0, [.stdout (mainHelp ++ "\n")]⟩
      else if name = "version" then ⟨0, [.stdout "avdl 0.1.10+1.12.1\n"]⟩
      else ⟨2, [.stderr (.badArgument (.unexpected (.long name)))]⟩
  | .ok none => ⟨2, [.stderr .noSubcommand]⟩
  | .error e => ⟨2, [.stderr (.badArgument e)]⟩

end

end Avdl
