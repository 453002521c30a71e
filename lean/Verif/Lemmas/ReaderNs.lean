import Verif.Reader
/-!
# The namespace does not leak

The reader passes one mutable namespace through a file.  Here it is shown that this comes to the
same as reading every declaration in one fixed namespace.
-/

namespace Avdl
open W

section
variable [CharTables] [FloatTables] [CaseTables]

/-- A record read in a fixed enclosing namespace. -/
def recordIn (tokens : List Token) (ns : Option String) (d : RecordDecl) : W Schema :=
  W.bind (walkDoc tokens d.start) fun doc =>
  W.bind (walkAnnots namedCtx {} d.annots) fun p =>
    let ident := identifierText d.ident
    let recordNs := (computeNamespace ident p.ns).or ns
    let name := extractName ident
    W.bind (failIf (isInvalidTypeName name) (.illegalName name) d.identSpan) fun _ =>
    W.bind (walkFields tokens recordNs name [] d.fields) fun fields =>
    W.pure (.record name recordNs doc fields d.isError p.aliases p.props)

/-- A declaration read in a fixed enclosing namespace. -/
def namedIn (tokens : List Token) (ns : Option String) : NamedDecl → W Schema
  | .record d => recordIn tokens ns d
  | .enum d => walkEnum tokens ns d
  | .fixed d => walkFixed tokens ns d

/-- A protocol body read in a fixed namespace. -/
def bodyIn (tokens : List Token) (ns : Option String) :
    List (String × Message) → List BodyItem → W (List (String × Message) × List DeclItem)
  | ms, [] => W.pure (ms, [])
  | ms, .import_ i :: items =>
      W.bind (bodyIn tokens ns ms items) fun r =>
        W.pure (r.1, .import_ (importEntry i) :: r.2)
  | ms, .named d span :: items =>
      W.bind (namedIn tokens ns d) fun s =>
      W.bind (bodyIn tokens ns ms items) fun r => W.pure (r.1, .type s span d.spans :: r.2)
  | ms, .message m :: items =>
      W.bind (walkMessage tokens ns m) fun nm =>
        bodyIn tokens ns (insertMessage ms nm.1 nm.2) items

/-- A protocol read without changing the namespace. -/
def protocolIn (tokens : List Token) (d : ProtocolDecl) : W (Protocol × List DeclItem) :=
  W.bind (walkDoc tokens d.start) fun doc =>
  W.bind (walkAnnots protocolCtx {} d.annots) fun p =>
    let ident := identifierText d.ident
    let ns := computeNamespace ident p.ns
    let name := extractName ident
    W.bind (failIf (isInvalidTypeName name) (.illegalName name) d.identSpan) fun _ =>
    W.bind (bodyIn tokens ns [] d.body) fun r =>
    W.pure ({ name, ns, doc, props := p.props, types := [], messages := r.1 }, r.2)

/-- Declarations read in a fixed namespace. -/
def itemsIn (tokens : List Token) (ns : Option String) :
    List FileItem → W (List Schema × List DeclItem)
  | [] => W.pure ([], [])
  | .import_ i :: items =>
      W.bind (itemsIn tokens ns items) fun r =>
        W.pure (r.1, .import_ (importEntry i) :: r.2)
  | .named d span :: items =>
      W.bind (namedIn tokens ns d) fun s =>
      W.bind (itemsIn tokens ns items) fun r =>
        W.pure (s :: r.1, .type s span d.spans :: r.2)

/-- A file read without changing the namespace. -/
def fileIn (tokens : List Token) : FileAst → W (IdlFile × List DeclItem)
  | .protocol d => W.bind (protocolIn tokens d) fun r => W.pure (.protocol r.1, r.2)
  | .schema nsIdent main body =>
      let ns := nsIdent.map identifierText
      W.bind (itemsIn tokens ns body) fun r =>
      match main with
      | some t => W.bind (walkFullType ns t) fun s => W.pure (.schema s, r.2)
      | none => W.pure (.named r.1, r.2)

omit [CharTables] [FloatTables] [CaseTables] in
theorem W.bind_assoc {α β γ : Type} (m : W α) (f : α → W β) (g : β → W γ) :
    W.bind (W.bind m f) g = W.bind m fun a => W.bind (f a) g := by
  funext l
  simp only [W.bind]
  cases m l with
  | error e => rfl
  | ok r => rfl

omit [CharTables] [FloatTables] [CaseTables] in
theorem W.bind_congr {α β : Type} {m : W α} {f g : α → W β} (h : ∀ a, f a = g a) :
    W.bind m f = W.bind m g := by rw [funext h]

omit [CharTables] [FloatTables] [CaseTables] in
theorem W.pure_bind {α β : Type} (a : α) (f : α → W β) : W.bind (W.pure a) f = f a := rfl

theorem walkRecord_eq (tokens : List Token) (ns : Option String) (d : RecordDecl) :
    walkRecord tokens ns d = W.bind (recordIn tokens ns d) fun s => W.pure (s, ns) := by
  unfold walkRecord recordIn
  simp only [W.bind_assoc, W.pure_bind]
  refine W.bind_congr fun doc => W.bind_congr fun p => W.bind_congr fun _ => ?_
  have : (if ((computeNamespace (identifierText d.ident) p.ns).or ns).isSome then
      (computeNamespace (identifierText d.ident) p.ns).or ns else ns) =
      (computeNamespace (identifierText d.ident) p.ns).or ns := by
    cases ns <;> cases computeNamespace (identifierText d.ident) p.ns <;> simp
  rw [this]

theorem walkNamed_eq (tokens : List Token) (ns : Option String) (d : NamedDecl) :
    walkNamed tokens ns d = W.bind (namedIn tokens ns d) fun s => W.pure (s, ns) := by
  cases d with
  | record d => exact walkRecord_eq tokens ns d
  | enum d => rfl
  | fixed d => rfl

theorem walkBody_eq (tokens : List Token) (ns : Option String) (items : List BodyItem) :
    ∀ ms, walkBody tokens ns ms items =
      W.bind (bodyIn tokens ns ms items) fun r => W.pure (r.1, r.2, ns) := by
  induction items with
  | nil => intro ms; rfl
  | cons i items ih =>
    intro ms
    cases i with
    | import_ i => simp only [walkBody, bodyIn, ih, W.bind_assoc, W.pure_bind]
    | named d sp => simp only [walkBody, bodyIn, walkNamed_eq, ih, W.bind_assoc, W.pure_bind]
    | message m => simp only [walkBody, bodyIn, ih, W.bind_assoc]

theorem walkItems_eq (tokens : List Token) (ns : Option String) (items : List FileItem) :
    walkItems tokens ns items =
      W.bind (itemsIn tokens ns items) fun r => W.pure (r.1, r.2, ns) := by
  induction items with
  | nil => rfl
  | cons i items ih =>
    cases i with
    | import_ i => simp only [walkItems, itemsIn, ih, W.bind_assoc, W.pure_bind]
    | named d sp => simp only [walkItems, itemsIn, walkNamed_eq, ih, W.bind_assoc, W.pure_bind]

/-- Reading a file is reading every declaration in the file's namespace. -/
theorem walkFile_eq (tokens : List Token) (f : FileAst) : walkFile tokens f = fileIn tokens f := by
  cases f with
  | protocol d =>
    simp only [walkFile, fileIn, walkProtocol, protocolIn, walkBody_eq, W.bind_assoc, W.pure_bind]
  | schema n main body =>
    simp only [walkFile, fileIn, walkItems_eq, W.bind_assoc, W.pure_bind]
    refine W.bind_congr fun r => ?_
    cases main <;> rfl

end

end Avdl
