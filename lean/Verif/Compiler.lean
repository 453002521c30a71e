import Verif.Reader
import Verif.Import
import Verif.Serialize
import Verif.Spans
/-!
# The compiler

Model of /repo/src/compiler.rs: import resolution, reference validation and the two builders `Idl`
and `Idl2Schemata`.

What the code gets from the operating system and from the generated parser is a parameter, `World`;
it does not change during a call.  The state threaded through the code by `&mut` references is
passed explicitly and survives errors, as in the code.  The recursion over imports is bounded by
fuel: `CompileErr.timeout` is not an outcome of the code (C21 shows that it does not occur with
enough fuel).
-/

namespace Avdl

/-- `PathBuf`. -/
abbrev Path := String

/-- Where a token stands, as `get_line`, `get_column`, `get_start` and `get_stop` say: lines from 1,
columns from 0 in characters, the offsets of the first and the last byte. -/
structure Mark where
  line : Nat
  column : Nat
  start : Int
  stop : Int
deriving DecidableEq

/-- An error of the lexer, /repo/src/reader.rs 1846-1906: the text it does not recognise, the line and
column ANTLR reports and the span made of them. -/
structure LexError where
  text : String
  line : Nat
  column : Nat
  span : Span
deriving DecidableEq

/-- What lexing and parsing a text without syntax errors gives, /repo/src/reader.rs 2020-2152: the
token stream, where its tokens stand, the parse tree and the errors of the lexer. -/
structure Source where
  tokens : List Token
  marks : List Mark
  ast : FileAst
  lexerErrors : List LexError

/-- The file system and the generated parser. -/
structure World where
  /-- `Path::join`. -/
  join : Path → String → Path
  /-- `Path::parent`. -/
  parent : Path → Option Path
  /-- `Path::file_name`, as UTF-8. -/
  fileName : Path → Option String
  /-- `Path::exists`. -/
  exists_ : Path → Bool
  /-- `Path::canonicalize`, `none` on failure. -/
  canonicalize : Path → Option Path
  /-- `env::current_dir`, `none` on failure. -/
  cwd : Option Path
  /-- `Path::is_dir`. -/
  isDir : Path → Bool
  /-- The entries `WalkDir` yields for a directory with `sort_by_file_name`, those that cannot be read
  left out: the directory itself, then what is below it, directories included. -/
  walk : Path → List Path
  /-- `fs::read_to_string`, `none` on failure. -/
  read : Path → Option String
  /-- Lexer and parser on a text with a name, `none` on syntax errors. -/
  parse : String → String → Option Source
  /-- `parse_json_with_comments`, /repo/src/import.rs 40-44, `none` on failure. -/
  parseJson : String → Option Json

/-- Why a compilation fails.  Message texts are dropped, and so are the positions in a file with
syntax errors.  `importFailed` is a failure reported at an import statement,
/repo/src/compiler.rs 757-770 and 850-871.  `invalidDefaults` has the first invalid default and the
others, each with the position it is reported at. -/
inductive CompileErr where
  | timeout
  | noCwd
  | unreadable (path : Path)
  | syntaxError (name : String)
  | read (name : String) (e : Fault)
  | importNotFound (path : String) (searched : List Path)
  | canonicalizeFailed (path : String)
  | badJson (path : Path)
  | importJson (path : Path) (e : ImportErr)
  | importFailed (span : Option Span) (cause : CompileErr)
  | register (e : RegErr) (span : Option Span)
  | invalidDefaults (type : String) (first : String × DefaultReason) (span : Option Span)
      (related : List (String × DefaultReason × Span))
  | undefined (names : List (String × Option Span))
  | neitherProtocolNorSchema

/-- `Warning`, /repo/src/reader.rs 63-67, with the message in structured form (see
`Warning.message`). -/
inductive Warning where
  | lexer (e : LexError)
  | outOfPlaceDoc (token line column : Nat) (span : Span)
  | walk (w : WalkWarning)
deriving DecidableEq

/-- `Warning::out_of_place_doc_comment`, /repo/src/reader.rs 99-128, for a token of a stream.  The
number of a token that is not in the stream does not occur. -/
def docWarning (marks : List Mark) (file : String) (i : Nat) : Warning :=
  let m := marks.getD i ⟨0, 0, -1, -1⟩
  let s := spanFromOffsets m.start m.stop
  .outOfPlaceDoc i m.line m.column ⟨s.1, s.2, file⟩

/-- A `miette::Report` made of a warning, wrapped with the name of an imported file. -/
structure Report where
  warning : Warning
  context : Option String
deriving DecidableEq

section
variable [CharTables] [FloatTables] [CaseTables]

/-- `parse_idl_named`, /repo/src/reader.rs 2011-2195: file, declarations and warnings. -/
def parseIdl (w : World) (text name : String) :
    Except CompileErr (IdlFile × List DeclItem × List Warning) :=
  match w.parse name text with
  | none => .error (.syntaxError name)
  | some src =>
    match readFile src.tokens src.ast with
    | .error e => .error (.read name e)
    | .ok r => .ok (r.file, r.decls, src.lexerErrors.map .lexer ++
        r.orphans.map (docWarning src.marks name) ++ r.warnings.map .walk)

/-! ## Imports -/

/-- `CompileContext`, /repo/src/compiler.rs 568-578, with the `read_locations` of its
`ImportContext`; the import directories, which do not change, are passed separately. -/
structure Ctx where
  registry : Registry
  imported : List Path
  messages : List (String × Message)
  warnings : List Report
  jsonImports : List (Path × Option Span)

/-- `CompileContext::new`, /repo/src/compiler.rs 581-589. -/
def Ctx.new : Ctx := ⟨[], [], [], [], []⟩

/-- A step that may fail; the context survives in both cases. -/
abbrev Outcome (α : Type) := Except CompileErr α × Ctx

omit [CharTables] [FloatTables] [CaseTables] in
/-- The search of `resolve_import` over the directories, /repo/src/import.rs 77-98. -/
def searchDirs (w : World) (file : String) : List Path → Option Path
  | [] => none
  | d :: ds => if w.exists_ (w.join d file) then some (w.join d file) else searchDirs w file ds

omit [CharTables] [FloatTables] [CaseTables] in
/-- `resolve_import`, /repo/src/import.rs 75-109. -/
def resolveImport (w : World) (dirs : List Path) (file : String) (dir : Path) :
    Except CompileErr Path :=
  match searchDirs w file (dir :: dirs) with
  | none => .error (.importNotFound file (dir :: dirs))
  | some p =>
    match w.canonicalize p with
    | none => .error (.canonicalizeFailed file)
    | some q => .ok q

/-- `HashMap::extend` on messages. -/
def extendMessages (ms new : List (String × Message)) : List (String × Message) :=
  new.foldl (fun acc nm => insertMessage acc nm.1 nm.2) ms

/-- Reading and parsing a JSON file, /repo/src/import.rs 307-310 and 359-362. -/
def readJson (w : World) (p : Path) : Except CompileErr Json :=
  match w.read p with
  | none => .error (.unreadable p)
  | some text =>
    match w.parseJson text with
    | none => .error (.badJson p)
    | some j => .ok j

/-- Reading and parsing an imported IDL file, /repo/src/compiler.rs 800-808. -/
def readIdl (w : World) (p : Path) : Except CompileErr (IdlFile × List DeclItem × List Warning) :=
  match w.read p with
  | none => .error (.unreadable p)
  | some text => parseIdl w text p

/-- The messages of a file, if it is a protocol, /repo/src/compiler.rs 822-824. -/
def IdlFile.messages : IdlFile → List (String × Message)
  | .protocol p => p.messages
  | _ => []

/-- The reports of the warnings of an imported file, /repo/src/compiler.rs 812-819. -/
def importReports (w : World) (p : Path) (file : String) (ws : List Warning) : List Report :=
  ws.map fun x => ⟨x, some ((w.fileName p).getD file)⟩

/-- `field_spans.get(name).or(span)`, /repo/src/compiler.rs 712 and 729; `field_spans` is a
`HashMap`, so the last entry of a name counts. -/
def errorSpan (spans : List (String × Span)) (span : Option Span) (field : String) : Option Span :=
  ((spans.reverse.find? fun x => x.1 == field).map Prod.snd).or span

/-- The error for invalid default values, /repo/src/compiler.rs 702-740: the first one with the others
attached, those without a position left out. -/
def defaultsErr (s : Schema) (span : Option Span) (spans : List (String × Span))
    (e : String × DefaultReason) (es : List (String × DefaultReason)) : CompileErr :=
  .invalidDefaults (s.fullName?.getD "<unknown>") e (errorSpan spans span e.1)
    (es.filterMap fun x => (errorSpan spans span x.1).map fun sp => (x.1, x.2, sp))

/-- Registering a declared type and checking the defaults of its fields,
/repo/src/compiler.rs 677-740. -/
def declareType (fuel : Nat) (s : Schema) (span : Option Span) (spans : List (String × Span))
    (c : Ctx) : Outcome Unit :=
  match c.registry.register s with
  | .error e => (.error (.register e span), c)
  | .ok r =>
    match validateRecordFieldDefaults r.find? fuel s with
    | none => (.error .timeout, { c with registry := r })
    | some [] => (.ok (), { c with registry := r })
    | some (e :: es) =>
        (.error (defaultsErr s span spans e es), { c with registry := r })

/-- `resolve_single_import`, /repo/src/compiler.rs 750-840.  `nested` is `process_decl_items`. -/
def resolveSingleImport (w : World) (dirs : List Path)
    (nested : List DeclItem → Path → Ctx → Outcome Unit)
    (i : ImportEntry) (dir : Path) (c : Ctx) : Outcome Unit :=
  match resolveImport w dirs i.path dir with
  | .error e => (.error (.importFailed i.span e), c)
  | .ok p =>
    if c.imported.contains p then (.ok (), c)
    else
      let c := { c with imported := p :: c.imported }
      match i.kind with
      | .protocol =>
          match readJson w p with
          | .error e => (.error (.importFailed i.span e), c)
          | .ok j =>
            match importProtocol j c.registry with
            | .error e => (.error (.importFailed i.span (.importJson p e)), c)
            | .ok (r, ms) =>
                (.ok (), { c with registry := r, messages := extendMessages c.messages ms,
                                  jsonImports := c.jsonImports ++ [(p, i.span)] })
      | .schema =>
          match readJson w p with
          | .error e => (.error (.importFailed i.span e), c)
          | .ok j =>
            match importSchema j c.registry with
            | .error e => (.error (.importFailed i.span (.importJson p e)), c)
            | .ok r =>
                (.ok (), { c with registry := r, jsonImports := c.jsonImports ++ [(p, i.span)] })
      | .idl =>
          match readIdl w p with
          | .error e => (.error e, c)
          | .ok (file, decls, ws) =>
              nested decls ((w.parent p).getD ".")
                { c with warnings := c.warnings ++ importReports w p i.path ws,
                         messages := extendMessages c.messages file.messages }

/-- The loop of `process_decl_items`, /repo/src/compiler.rs 667-746, with the recursive call as a
parameter. -/
def processItems (w : World) (dirs : List Path) (fuel : Nat)
    (nested : List DeclItem → Path → Ctx → Outcome Unit) :
    List DeclItem → Path → Ctx → Outcome Unit
  | [], _, c => (.ok (), c)
  | .import_ i :: items, dir, c =>
      match resolveSingleImport w dirs nested i dir c with
      | (.error e, c') => (.error e, c')
      | (.ok (), c') => processItems w dirs fuel nested items dir c'
  | .type s span spans :: items, dir, c =>
      match declareType fuel s span spans c with
      | (.error e, c') => (.error e, c')
      | (.ok (), c') => processItems w dirs fuel nested items dir c'

/-- `process_decl_items`, /repo/src/compiler.rs 667-746.  `depth` bounds the nesting of imports,
`fuel` the checks of default values. -/
def processDecls (w : World) (dirs : List Path) (fuel : Nat) :
    Nat → List DeclItem → Path → Ctx → Outcome Unit
  | 0, _, _, c => (.error .timeout, c)
  | depth + 1, items, dir, c =>
      processItems w dirs fuel (processDecls w dirs fuel depth) items dir c

/-- The end of `parse_and_resolve`, /repo/src/compiler.rs 646-657: the protocol with the types of
the registry and the imported messages, its own messages replacing those of the same name. -/
def finishFile (file : IdlFile) (c : Ctx) : IdlFile :=
  match file with
  | .protocol p => .protocol { p with types := c.registry.schemas,
                                      messages := extendMessages c.messages p.messages }
  | f => f

/-- `parse_and_resolve`, /repo/src/compiler.rs 603-664. -/
def parseAndResolve (w : World) (dirs : List Path) (fuel : Nat) (text name : String) (dir : Path)
    (path : Option Path) (c : Ctx) : Outcome IdlFile :=
  match parseIdl w text name with
  | .error e => (.error e, c)
  | .ok (file, decls, ws) =>
    let c := { c with warnings := c.warnings ++ ws.map fun x => ⟨x, none⟩,
                      imported := path.toList ++ c.imported }
    match processDecls w dirs fuel fuel decls dir c with
    | (.error e, c') => (.error e, c')
    | (.ok (), c') => (.ok (finishFile file c'), c')

/-! ## Undefined names -/

/-- The references outside the registry, /repo/src/compiler.rs 1010-1039. -/
def fileUnresolved (r : Registry) : IdlFile → List (String × Option Span)
  | .schema s => r.validateSchema s
  | .named ss => ss.flatMap r.validateSchema
  | .protocol p => p.messages.flatMap fun nm =>
      r.validateSchema nm.2.response ++ nm.2.request.flatMap (fun f => r.validateSchema f.schema) ++
        (match nm.2.errors with
          | some es => es.flatMap r.validateSchema
          | none => [])

/-- Keeping the first entry of each name, /repo/src/compiler.rs 1044-1047. -/
def dedupNames : List String → List (String × Option Span) → List (String × Option Span)
  | _, [] => []
  | seen, x :: xs =>
      if seen.contains x.1 then dedupNames seen xs else x :: dedupNames (x.1 :: seen) xs

/-- The sort key, /repo/src/compiler.rs 1051-1054. -/
def spanKey : Option Span → String × Nat
  | none => ("", 2 ^ 64 - 1)
  | some s => (s.file, s.offset)

/-- The order of the sort. -/
def spanLe (a b : String × Option Span) : Bool :=
  decide ((spanKey a.2).1 < (spanKey b.2).1) ||
    (decide ((spanKey a.2).1 = (spanKey b.2).1) && decide ((spanKey a.2).2 ≤ (spanKey b.2).2))

/-- Insertion into a sorted list, before equal elements. -/
def sortInsert {α : Type} (le : α → α → Bool) (a : α) : List α → List α
  | [] => [a]
  | b :: bs => if le a b then a :: b :: bs else b :: sortInsert le a bs

/-- A stable sort (`sort_by_key`). -/
def stableSort {α : Type} (le : α → α → Bool) : List α → List α
  | [] => []
  | a :: as => sortInsert le a (stableSort le as)

/-- The undefined names in the order they are reported, /repo/src/compiler.rs 998-1173: sorted by
position, those with a position first. -/
def undefinedNames (file : IdlFile) (r : Registry) : List (String × Option Span) :=
  let sorted := stableSort spanLe (dedupNames [] (r.validateReferences ++ fileUnresolved r file))
  sorted.filter (fun x => x.2.isSome) ++ sorted.filter (fun x => !x.2.isSome)

/-- `validate_all_references`, /repo/src/compiler.rs 998-1173. -/
def validateAllReferences (file : IdlFile) (r : Registry) : Except CompileErr Unit :=
  match undefinedNames file r with
  | [] => .ok ()
  | x :: xs => .error (.undefined (x :: xs))

/-! ## The builders -/

/-- `IdlCompiler`, /repo/src/compiler.rs 47-53. -/
structure Builder where
  importDirs : List Path
  accumulated : List Report

/-- `IdlCompiler::new`, /repo/src/compiler.rs 75-80. -/
def Builder.new : Builder := ⟨[], []⟩

/-- `import_dir`, /repo/src/compiler.rs 82-84. -/
def Builder.importDir (b : Builder) (d : Path) : Builder :=
  { b with importDirs := b.importDirs ++ [d] }

/-- `drain_warnings`, /repo/src/compiler.rs 86-88. -/
def Builder.drain (b : Builder) : List Report × Builder :=
  (b.accumulated, { b with accumulated := [] })

/-- `CompileOutput`, /repo/src/compiler.rs 62-72, without the source text. -/
structure CompileOutput where
  file : IdlFile
  registry : Registry
  warnings : List Report

/-- `compile`, /repo/src/compiler.rs 134-175. -/
def Builder.compile (b : Builder) (w : World) (fuel : Nat) (text name : String) (dir : Path)
    (path : Option Path) : Except CompileErr CompileOutput × Builder :=
  let b := { b with accumulated := [] }
  match parseAndResolve w b.importDirs fuel text name dir path Ctx.new with
  | (.error e, c) => (.error e, { b with accumulated := c.warnings })
  | (.ok file, c) =>
    match validateAllReferences file c.registry with
    | .error e => (.error e, { b with accumulated := c.warnings })
    | .ok () => (.ok ⟨file, c.registry, c.warnings⟩, b)

/-- `compile_file`, /repo/src/compiler.rs 95-112. -/
def Builder.compileFile (b : Builder) (w : World) (fuel : Nat) (path : Path) :
    Except CompileErr CompileOutput × Builder :=
  match w.read path with
  | none => (.error (.unreadable path), b)
  | some text =>
      let dir := (w.parent path).getD "."
      b.compile w fuel text path ((w.canonicalize dir).getD dir) (w.canonicalize path)

/-- `compile_str`, /repo/src/compiler.rs 117-126. -/
def Builder.compileStr (b : Builder) (w : World) (fuel : Nat) (text name : String) :
    Except CompileErr CompileOutput × Builder :=
  match w.cwd with
  | none => (.error .noCwd, b)
  | some dir => b.compile w fuel text name dir none

/-- `IdlOutput`, /repo/src/compiler.rs 222-231. -/
structure IdlOutput where
  json : Json
  warnings : List Report

/-- The serialization in `Idl::convert_impl`, /repo/src/compiler.rs 348-358. -/
def outputJson (fuel : Nat) (out : CompileOutput) : Option Json :=
  match out.file with
  | .protocol p => protocolToJson fuel p
  | .schema s => (schemaToJson (buildLookup out.registry.schemas none) fuel s none []).map Prod.fst
  | .named _ => none

/-- `Idl::convert_impl`, /repo/src/compiler.rs 311-360. -/
def convertImpl (fuel : Nat) (r : Except CompileErr CompileOutput × Builder) :
    Except CompileErr IdlOutput × Builder :=
  match r with
  | (.error e, b) => (.error e, b)
  | (.ok out, b) =>
    match out.file with
    | .named _ => (.error .neitherProtocolNorSchema, { b with accumulated := out.warnings })
    | _ =>
      match outputJson fuel out with
      | none => (.error .timeout, b)
      | some json => (.ok ⟨json, out.warnings⟩, b)

/-- `Idl::convert`, /repo/src/compiler.rs 283-286. -/
def Builder.convert (b : Builder) (w : World) (fuel : Nat) (path : Path) :
    Except CompileErr IdlOutput × Builder :=
  convertImpl fuel (b.compileFile w fuel path)

/-- `Idl::convert_str_named`, /repo/src/compiler.rs 296-303 (`convert_str`, lines 290-292, passes
the name `<input>`). -/
def Builder.convertStr (b : Builder) (w : World) (fuel : Nat) (text name : String) :
    Except CompileErr IdlOutput × Builder :=
  convertImpl fuel (b.compileStr w fuel text name)

/-- `SchemataOutput`, /repo/src/compiler.rs 387-396. -/
structure SchemataOutput where
  schemas : List (String × Json)
  warnings : List Report

/-- `Idl2Schemata::extract_impl`, /repo/src/compiler.rs 530-558. -/
def extractImpl (fuel : Nat) (out : CompileOutput) : Except CompileErr SchemataOutput :=
  match extractSchemas fuel out.registry.schemas with
  | none => .error .timeout
  | some ss => .ok ⟨ss, out.warnings⟩

/-- `compile_file` or `compile_str` followed by `extract_impl`. -/
def extractFrom (fuel : Nat) (r : Except CompileErr CompileOutput × Builder) :
    Except CompileErr SchemataOutput × Builder :=
  match r with
  | (.error e, b) => (.error e, b)
  | (.ok out, b) => (extractImpl fuel out, b)

/-- `Idl2Schemata::extract_str_named`, /repo/src/compiler.rs 483-490. -/
def Builder.extractStr (b : Builder) (w : World) (fuel : Nat) (text name : String) :
    Except CompileErr SchemataOutput × Builder :=
  extractFrom fuel (b.compileStr w fuel text name)

/-- The file loop of `extract_directory`, /repo/src/compiler.rs 511-516. -/
def Builder.extractFiles (w : World) (fuel : Nat) :
    List Path → Builder → Except CompileErr SchemataOutput × Builder
  | [], b => (.ok ⟨[], []⟩, b)
  | p :: ps, b =>
      match extractFrom fuel (b.compileFile w fuel p) with
      | (.error e, b') => (.error e, b')
      | (.ok out, b') =>
        match Builder.extractFiles w fuel ps b' with
        | (.error e, b'') => (.error e, b'')
        | (.ok rest, b'') =>
            (.ok ⟨out.schemas ++ rest.schemas, out.warnings ++ rest.warnings⟩, b'')

/-- `Path::extension` in terms of the file name: what follows the last dot, unless nothing precedes
it. -/
def extensionOf (name : String) : Option String :=
  match rsplitDot name.toList with
  | some (_ :: _, ext) => some (String.ofList ext)
  | _ => none

/-- The paths collected in `extract_directory`, /repo/src/compiler.rs 499-509. -/
def World.avdlFiles (w : World) (dir : Path) : List Path :=
  (w.walk dir).filter fun p => (w.fileName p).bind extensionOf == some "avdl"

/-- `Idl2Schemata::extract`, /repo/src/compiler.rs 465-474, and `extract_directory`, 495-522. -/
def Builder.extract (b : Builder) (w : World) (fuel : Nat) (path : Path) :
    Except CompileErr SchemataOutput × Builder :=
  if w.isDir path then Builder.extractFiles w fuel (w.avdlFiles path) b
  else extractFrom fuel (b.compileFile w fuel path)

end

end Avdl
