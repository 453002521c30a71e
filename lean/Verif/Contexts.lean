import Verif.Compiler
/-!
# The contexts of errors

A `miette::Report` is an error with messages wrapped around it.  `Verif.Compiler` has the errors
only; here the messages wrapped around them on the way out are added.  (The messages inside the
errors of `import_protocol` and `import_schema` are in `ImportErr`.)
-/

namespace Avdl

/-- The contexts added by the compiler: /repo/src/compiler.rs 97, 122, 611, 805, 811, 833-835, and
/repo/src/reader.rs 2170.  Those of lines 768 and 869 are added to imports without position only,
which do not occur; that of /repo/src/reader.rs 2065 is for an error of the parser generator's
runtime, which is not modelled. -/
inductive Context where
  | file (path : Path)
  | currentDir
  | source
  | walk (name : String)
  | readImported (path : Path)
  | parseImported (path : Path)
  | nested (path : Path)
deriving DecidableEq, Repr

/-- The texts. -/
def Context.text : Context → String
  | .file p => "read " ++ p
  | .currentDir => "determine current directory"
  | .source => "parse IDL source"
  | .walk n => "parse `" ++ n ++ "`"
  | .readImported p => "read imported IDL " ++ p
  | .parseImported p => "parse imported IDL " ++ p
  | .nested p => "resolve nested imports from `" ++ p ++ "`"

/-- An error with its contexts, the outermost first. -/
structure Failure where
  contexts : List Context
  error : CompileErr

/-- `context` and `with_context` of `miette`. -/
def Failure.within (f : Failure) (x : Context) : Failure := ⟨x :: f.contexts, f.error⟩

/-- The same for results. -/
def addContext {α : Type} (r : Except Failure α) (x : Context) : Except Failure α :=
  match r with
  | .error f => .error (f.within x)
  | .ok a => .ok a

/-- An error without contexts. -/
def CompileErr.bare (e : CompileErr) : Failure := ⟨[], e⟩

/-- A step that may fail; the compile context survives in both cases. -/
abbrev Explained (α : Type) := Except Failure α × Ctx

section
variable [CharTables] [FloatTables] [CaseTables]

/-- `parse_idl_named`, /repo/src/reader.rs 2011-2195. -/
def parseIdlE (w : World) (text name : String) :
    Except Failure (IdlFile × List DeclItem × List Warning) :=
  match w.parse name text with
  | none => .error (CompileErr.syntaxError name).bare
  | some src =>
    match readFile src.tokens src.ast with
    | .error e => addContext (.error (CompileErr.read name e).bare) (.walk name)
    | .ok r => .ok (r.file, r.decls, src.lexerErrors.map .lexer ++
        r.orphans.map (docWarning src.marks name) ++ r.warnings.map .walk)

/-- Reading and parsing an imported IDL file, /repo/src/compiler.rs 800-811. -/
def readIdlE (w : World) (p : Path) : Except Failure (IdlFile × List DeclItem × List Warning) :=
  match w.read p with
  | none => addContext (.error (CompileErr.unreadable p).bare) (.readImported p)
  | some text => addContext (parseIdlE w text p) (.parseImported p)

/-- `resolve_single_import`, /repo/src/compiler.rs 750-840.  `nested` is `process_decl_items`. -/
def resolveSingleImportE (w : World) (dirs : List Path)
    (nested : List DeclItem → Path → Ctx → Explained Unit)
    (i : ImportEntry) (dir : Path) (c : Ctx) : Explained Unit :=
  match resolveImport w dirs i.path dir with
  | .error e => (.error (CompileErr.importFailed i.span e).bare, c)
  | .ok p =>
    if c.imported.contains p then (.ok (), c)
    else
      let c := { c with imported := p :: c.imported }
      match i.kind with
      | .protocol =>
          match readJson w p with
          | .error e => (.error (CompileErr.importFailed i.span e).bare, c)
          | .ok j =>
            match importProtocol j c.registry with
            | .error e => (.error (CompileErr.importFailed i.span (.importJson p e)).bare, c)
            | .ok (r, ms) =>
                (.ok (), { c with registry := r, messages := extendMessages c.messages ms,
                                  jsonImports := c.jsonImports ++ [(p, i.span)] })
      | .schema =>
          match readJson w p with
          | .error e => (.error (CompileErr.importFailed i.span e).bare, c)
          | .ok j =>
            match importSchema j c.registry with
            | .error e => (.error (CompileErr.importFailed i.span (.importJson p e)).bare, c)
            | .ok r =>
                (.ok (), { c with registry := r, jsonImports := c.jsonImports ++ [(p, i.span)] })
      | .idl =>
          match readIdlE w p with
          | .error f => (.error f, c)
          | .ok (file, decls, ws) =>
              let r := nested decls ((w.parent p).getD ".")
                { c with warnings := c.warnings ++ importReports w p i.path ws,
                         messages := extendMessages c.messages file.messages }
              (addContext r.1 (.nested p), r.2)

/-- The loop of `process_decl_items`, /repo/src/compiler.rs 667-746. -/
def processItemsE (w : World) (dirs : List Path) (fuel : Nat)
    (nested : List DeclItem → Path → Ctx → Explained Unit) :
    List DeclItem → Path → Ctx → Explained Unit
  | [], _, c => (.ok (), c)
  | .import_ i :: items, dir, c =>
      match resolveSingleImportE w dirs nested i dir c with
      | (.error f, c') => (.error f, c')
      | (.ok (), c') => processItemsE w dirs fuel nested items dir c'
  | .type s span spans :: items, dir, c =>
      match declareType fuel s span spans c with
      | (.error e, c') => (.error e.bare, c')
      | (.ok (), c') => processItemsE w dirs fuel nested items dir c'

/-- `process_decl_items`, /repo/src/compiler.rs 667-746, `depth` bounding the nesting of imports. -/
def processDeclsE (w : World) (dirs : List Path) (fuel : Nat) :
    Nat → List DeclItem → Path → Ctx → Explained Unit
  | 0, _, _, c => (.error CompileErr.timeout.bare, c)
  | depth + 1, items, dir, c =>
      processItemsE w dirs fuel (processDeclsE w dirs fuel depth) items dir c

/-- `parse_and_resolve`, /repo/src/compiler.rs 603-664. -/
def parseAndResolveE (w : World) (dirs : List Path) (fuel : Nat) (text name : String) (dir : Path)
    (path : Option Path) (c : Ctx) : Explained IdlFile :=
  match addContext (parseIdlE w text name) .source with
  | .error f => (.error f, c)
  | .ok (file, decls, ws) =>
    let c := { c with warnings := c.warnings ++ ws.map fun x => ⟨x, none⟩,
                      imported := path.toList ++ c.imported }
    match processDeclsE w dirs fuel fuel decls dir c with
    | (.error f, c') => (.error f, c')
    | (.ok (), c') => (.ok (finishFile file c'), c')

/-- `compile`, /repo/src/compiler.rs 134-175. -/
def Builder.compileE (b : Builder) (w : World) (fuel : Nat) (text name : String) (dir : Path)
    (path : Option Path) : Except Failure CompileOutput × Builder :=
  let b := { b with accumulated := [] }
  match parseAndResolveE w b.importDirs fuel text name dir path Ctx.new with
  | (.error f, c) => (.error f, { b with accumulated := c.warnings })
  | (.ok file, c) =>
    match validateAllReferences file c.registry with
    | .error e => (.error e.bare, { b with accumulated := c.warnings })
    | .ok () => (.ok ⟨file, c.registry, c.warnings⟩, b)

/-- `compile_file`, /repo/src/compiler.rs 95-112. -/
def Builder.compileFileE (b : Builder) (w : World) (fuel : Nat) (path : Path) :
    Except Failure CompileOutput × Builder :=
  match w.read path with
  | none => (addContext (.error (CompileErr.unreadable path).bare) (.file path), b)
  | some text =>
      let dir := (w.parent path).getD "."
      b.compileE w fuel text path ((w.canonicalize dir).getD dir) (w.canonicalize path)

/-- `compile_str`, /repo/src/compiler.rs 117-126. -/
def Builder.compileStrE (b : Builder) (w : World) (fuel : Nat) (text name : String) :
    Except Failure CompileOutput × Builder :=
  match w.cwd with
  | none => (addContext (.error CompileErr.noCwd.bare) .currentDir, b)
  | some dir => b.compileE w fuel text name dir none

end

end Avdl
