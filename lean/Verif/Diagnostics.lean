import Verif.Compiler
import Verif.Suggest
/-!
# The report of undefined names

Model of the second half of `validate_all_references`, /repo/src/compiler.rs 1055-1173: from the
sorted list of undefined names to the diagnostic.  Texts are kept in structured form.
-/

namespace Avdl

/-- The underline labels. -/
inductive Label where
  /-- "this import contains undefined type references" -/
  | importContains
  /-- "type `name` referenced in imported file `path`" -/
  | referencedIn (name : String) (path : Path)
deriving DecidableEq

/-- The help texts. -/
inductive Help where
  /-- From `suggest_similar_name`. -/
  | hint (h : Hint)
  /-- "the undefined type(s) may be referenced in imported file(s): ..." -/
  | importedFiles (paths : List Path)
deriving DecidableEq

/-- `ParseDiagnostic`, /repo/src/error.rs 74-88, without related diagnostics; the message is
"Undefined name: " and the names, separated by commas. -/
structure Note where
  span : Span
  names : List String
  label : Option Label
  help : Option Help
deriving DecidableEq

/-- The error for undefined names. -/
inductive UndefinedError where
  /-- A diagnostic with its related ones. -/
  | diagnostic (main : Note) (related : List Note)
  /-- Plain text. -/
  | plain (names : List String) (help : Option Help)
deriving DecidableEq

/-- The diagnostic of a name with a position, /repo/src/compiler.rs 1113-1123 and 1164-1172.  The
outer `none` is a panic of `suggest_similar_name`. -/
def placedNote (registered : List String) (name : String) (s : Span) : Option Note :=
  (suggestSimilarName name registered).map fun h => ⟨s, [name], none, h.map .hint⟩

/-- The related diagnostics of further names with positions, /repo/src/compiler.rs 1112-1124. -/
def placedNotes (registered : List String) : List (String × Span) → Option (List Note)
  | [] => some []
  | x :: xs => do
      let n ← placedNote registered x.1 x.2
      let ns ← placedNotes registered xs
      some (n :: ns)

/-- The help for names from JSON files, /repo/src/compiler.rs 1080-1087 and 1145-1152. -/
def importHelp (imports : List (Path × Option Span)) : Option Help :=
  if imports.isEmpty then none else some (.importedFiles (imports.map Prod.fst))

/-- The diagnostic of a name without position, /repo/src/compiler.rs 1131-1161. -/
def importNote (registered : List String) (imports : List (Path × Option Span))
    (sourceName : String) (name : String) : Option Note :=
  let place : Span × Option Label :=
    match imports with
    | (path, some s) :: _ => (s, some (.referencedIn name path))
    | _ => (⟨0, 0, sourceName⟩, none)
  match importHelp imports with
  | some h => some ⟨place.1, [name], place.2, some h⟩
  | none => (suggestSimilarName name registered).map fun h => ⟨place.1, [name], place.2, h.map .hint⟩

/-- The loop over the names without position, /repo/src/compiler.rs 1131-1161. -/
def importNotes (registered : List String) (imports : List (Path × Option Span))
    (sourceName : String) : List String → Option (List Note)
  | [] => some []
  | x :: xs => do
      let n ← importNote registered imports sourceName x
      let ns ← importNotes registered imports sourceName xs
      some (n :: ns)

/-- The names with a position. -/
def withSpan (xs : List (String × Option Span)) : List (String × Span) :=
  xs.filterMap fun x => x.2.map fun s => (x.1, s)

/-- The names without. -/
def withoutSpan (xs : List (String × Option Span)) : List String :=
  (xs.filter fun x => !x.2.isSome).map Prod.fst

/-- `validate_all_references` from the partition on, /repo/src/compiler.rs 1059-1173, for a
non-empty list of undefined names.  The outer `none` is a panic. -/
def undefinedError (registered : List String) (imports : List (Path × Option Span))
    (sourceName : String) (xs : List (String × Option Span)) : Option UndefinedError :=
  match withSpan xs with
  | [] =>
      match imports.findSome? Prod.snd with
      | some s => some (.diagnostic ⟨s, withoutSpan xs, some .importContains, importHelp imports⟩ [])
      | none => some (.plain (withoutSpan xs) (importHelp imports))
  | x :: rest => do
      let main ← placedNote registered x.1 x.2
      let placed ← placedNotes registered rest
      let others ← importNotes registered imports sourceName (withoutSpan xs)
      some (.diagnostic main (placed ++ others))

section
variable [CharTables] [FloatTables] [CaseTables]

/-- What a compilation reports that fails because of undefined names: the call of
`validate_all_references` in `compile`, /repo/src/compiler.rs 152-163. -/
def undefinedReport (b : Builder) (w : World) (fuel : Nat) (text name : String) (dir : Path)
    (path : Option Path) : Option (Option UndefinedError) :=
  match parseAndResolve w b.importDirs fuel text name dir path Ctx.new with
  | (.error _, _) => none
  | (.ok file, c) =>
    match undefinedNames file c.registry with
    | [] => none
    | x :: xs => some (undefinedError c.registry.names c.jsonImports name (x :: xs))

end

end Avdl
