import Verif.Compiler
/-!
# The command line

Model of the two subcommands in /repo/src/main.rs (191-324).  Arguments and exit status are in
`Verif/Args.lean`; the text of error messages is not modelled.
-/

namespace Avdl

/-- What a run does to the outside.  The JSON is written pretty-printed; `newline` says whether a
line feed follows. -/
inductive Effect where
  | stderr (warning : Report)
  | stdout (content : Json) (newline : Bool)
  | createDir (path : Path)
  | writeFile (path : Path) (content : Json) (newline : Bool)

/-- Standard input, and which writes succeed.  A broken pipe on standard output counts as success
(lines 309-312). -/
structure Shell where
  stdin : Option String
  stdoutOk : Bool
  canCreate : Path → Bool
  canWrite : Path → Bool

/-- Failures of the command line itself and of the library. -/
inductive CliErr where
  | compile (e : CompileErr)
  | stdin
  | stdout
  | notADirectory (path : Path)
  | createDir (path : Path)
  | write (path : Path)

/-- `write_output`, /repo/src/main.rs 300-324. -/
def writeOutput (sh : Shell) (output : Option String) (content : Json) :
    Except CliErr Unit × List Effect :=
  match output.filter fun s => s ≠ "-" with
  | none => if sh.stdoutOk then (.ok (), [.stdout content false]) else (.error .stdout, [])
  | some p => if sh.canWrite p then (.ok (), [.writeFile p content true]) else (.error (.write p), [])

section
variable [CharTables] [FloatTables] [CaseTables]

/-- The call of the library in `run_idl`, /repo/src/main.rs 196-213. -/
def idlConvert (w : World) (sh : Shell) (fuel : Nat) (input : Option String) (b : Builder) :
    Option (Except CompileErr IdlOutput × Builder) :=
  match input.filter fun s => s ≠ "-" with
  | some p => some (b.convert w fuel p)
  | none =>
    match sh.stdin with
    | none => none
    | some text => some (b.convertStr w fuel text (input.getD "<stdin>"))

/-- `run_idl`, /repo/src/main.rs 191-239. -/
def runIdl (w : World) (sh : Shell) (fuel : Nat) (input output : Option String)
    (importDirs : List Path) : Except CliErr Unit × List Effect :=
  match idlConvert w sh fuel input (importDirs.foldl Builder.importDir Builder.new) with
  | none => (.error .stdin, [])
  | some (.ok out, _) =>
      let r := writeOutput sh output out.json
      (r.1, out.warnings.map .stderr ++ r.2)
  | some (.error e, b) => (.error (.compile e), b.drain.1.map .stderr)

/-- The file loop of `run_idl2schemata`, /repo/src/main.rs 281-290. -/
def writeSchemas (w : World) (sh : Shell) (dir : Path) :
    List (String × Json) → Except CliErr Unit × List Effect
  | [] => (.ok (), [])
  | (name, j) :: rest =>
      let path := w.join dir (name ++ ".avsc")
      if sh.canWrite path then
        let r := writeSchemas w sh dir rest
        (r.1, .writeFile path j true :: r.2)
      else (.error (.write path), [])

/-- `run_idl2schemata`, /repo/src/main.rs 245-293. -/
def runIdl2schemata (w : World) (sh : Shell) (fuel : Nat) (input : String) (outdir : Option Path)
    (importDirs : List Path) : Except CliErr Unit × List Effect :=
  match (importDirs.foldl Builder.importDir Builder.new).extract w fuel input with
  | (.error e, b) => (.error (.compile e), b.drain.1.map .stderr)
  | (.ok out, _) =>
      let warnings := out.warnings.map Effect.stderr
      let dir := outdir.getD "."
      if w.exists_ dir && !w.isDir dir then (.error (.notADirectory dir), warnings)
      else if !sh.canCreate dir then (.error (.createDir dir), warnings)
      else
        let r := writeSchemas w sh dir out.schemas
        (r.1, warnings ++ .createDir dir :: r.2)

end

end Avdl
