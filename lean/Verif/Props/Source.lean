import Verif.Lemmas.ReaderDocs
import Verif.Props.ReaderTypes
/-!
# C28, C30, C35: declarations mean what they say

For every token stream and parse tree: the declared names, namespaces, types, documentation,
annotations and defaults that come out of the reader are those of the specification
(Verif/Spec/Source.lean), in source order, and every doc comment belongs to a declaration or is
reported.
-/

namespace Avdl.Props
open W Spec

section
variable [CharTables] [FloatTables] [CaseTables]

/-- **C28.**  Every declaration of a file that is read means what the specification says, in the
namespace of the file: the prefix of a dotted identifier, else the namespace annotation, else the
enclosing namespace (`DeclaredName`); references in a record's fields are resolved in the record's
namespace, references in messages in the protocol's (`ReferenceName`), whatever was declared
before. -/
theorem C28_namespace_scoping {tokens : List Token} {ast : FileAst} {r : ReadResult}
    (h : readFile tokens ast = .ok r) :
    ∃ ns, FileNamespace ast ns ∧ FileMeans tokens ast ns r :=
  readFile_means h

omit [CharTables] [FloatTables] [CaseTables] in
/-- The specification leaves no choice of name and namespace. -/
theorem C28_names_determined {encl annotation : Option String} {ident name name' : String}
    {ns ns' : Option String} (h : DeclaredName encl annotation ident name ns)
    (h' : DeclaredName encl annotation ident name' ns') : name = name' ∧ ns = ns' := by
  have key : ∀ {n ns}, DeclaredName encl annotation ident n ns →
      n = extractName ident ∧ ns = (computeNamespace ident annotation).or encl := by
    intro n ns h
    cases h with
    | @dotted pre _ he hd =>
      have : splitFullName ident = (n, some pre) := by
        unfold splitFullName
        rw [he, String.toList_append, String.toList_append, dot_toList, List.append_assoc,
          show ['.'] ++ n.toList = '.' :: n.toList from rfl, rsplitDot_append hd]
        simp
      simp [extractName, computeNamespace, this]
    | annotated hd he =>
      have := splitFullName_dotfree hd
      simp [extractName, computeNamespace, this, he]
    | inherited hd he =>
      have := splitFullName_dotfree hd
      simp [extractName, computeNamespace, this, he]
  exact ⟨(key h).1.trans (key h').1.symm, (key h).2.trans (key h').2.symm⟩

/-- **C35**, reader part: the declarations come out in source order, one for each import and type
declaration. -/
theorem C35_source_order {tokens : List Token} {ast : FileAst} {r : ReadResult}
    (h : readFile tokens ast = .ok r) :
    ∃ ns, FileNamespace ast ns ∧ Matching (ItemMeans tokens ns) (sourceDecls ast) r.decls := by
  obtain ⟨ns, h1, h2⟩ := readFile_means h
  exact ⟨ns, h1, h2.decls⟩

/-- **C30.**  The doc comments reported as out of place are exactly those that belong to no
declaration, each once, in source order. -/
theorem C30_reported_exactly {tokens : List Token} {ast : FileAst} {r : ReadResult}
    (h : readFile tokens ast = .ok r) :
    r.orphans.Pairwise (· < ·) ∧
    ∀ i, i ∈ r.orphans ↔ (∃ t, tokens[i]? = some t ∧ t.type = .doc) ∧
      ¬ ∃ place ∈ docPlaces ast, DocBefore tokens place (some i) := by
  rw [readFile_orphans h]
  unfold orphanedDocs
  refine ⟨List.pairwise_lt_range.filter _, fun i => ?_⟩
  rw [List.mem_filter, List.mem_range, ← mem_docsAt]
  cases ht : tokens[i]? with
  | none => simp
  | some t =>
    have := (List.getElem?_eq_some_iff.mp ht).1
    simp [this]

omit [CharTables] [FloatTables] [CaseTables] in
/-- **C30.**  A place has at most one doc comment. -/
theorem C30_one_comment_per_place {tokens : List Token} {place : Nat} {i j : Option Nat}
    (hi : DocBefore tokens place i) (hj : DocBefore tokens place j) : i = j :=
  DocBefore.unique hi hj

omit [CharTables] [FloatTables] [CaseTables] in
/-- **C30.**  Every place has a doc comment or none: `DocBefore` is total. -/
theorem C30_comment_determined (tokens : List Token) (place : Nat) :
    ∃ i, DocBefore tokens place i := ⟨_, (findDoc_spec tokens place).1⟩

end

/-! ## Examples and a violation -/

attribute [local instance] asciiTables exFloats exCases

/-- A token that is neither a comment nor white space. -/
def other (s : String) : Token := ⟨.other, s⟩
/-- A blank. -/
def blank : Token := ⟨.ws, " "⟩
/-- A doc comment. -/
def docTok (s : String) : Token := ⟨.doc, "/** " ++ s ++ " */"⟩

/-- `/** A */ int /** B */ x;` inside `record R { … }`, after an out of place comment. -/
def exLostTokens : List Token :=
  [other "record", blank, other "R", blank, other "{", blank, docTok "A", blank, other "int", blank,
   docTok "B", blank, other "x", other ";", blank, docTok "C", other "}"]

/-- The declaration of `exLostTokens`. -/
def exLost : FileAst := .schema none none
  [.named (.record ⟨0, [], false, "R", [⟨8, .mk [] (.prim (.prim .int) false none) none,
    [⟨12, [], "x", none, none, none, none⟩]⟩], none⟩) none]

/-- What is read: the comment `A` has disappeared, without a report; `C` is reported. -/
def exLostResult : ReadResult where
  file := .named [.record "R" none none [.mk "x" (.prim .int) (some "B") none none [] []] false [] []]
  decls := [.type (.record "R" none none [.mk "x" (.prim .int) (some "B") none none [] []] false [] [])
    none []]
  orphans := [15]
  warnings := []

/-- **C30 fails** for the comment of a field declaration all of whose variables have their own:
it is neither attached to anything nor reported. -/
theorem C30_field_comment_lost : readFile exLostTokens exLost = .ok exLostResult ∧
    exLostTokens[6]? = some (docTok "A") ∧ 6 ∉ exLostResult.orphans ∧
    docText (docTok "A").text = some "A" :=
  ⟨rfl, rfl, by decide, rfl⟩

/-- `/** P */ @namespace("a.b") protocol P { @namespace("c") record R { S s; d.T t; }
record b.S { R r; } /** M */ S m(R r); enum E {A} }`, with the start of each declaration. -/
def exScopes : FileAst := .protocol
  { start := 2, annots := [⟨"namespace", .str "\"a.b\"", none⟩], ident := "P", identSpan := none, body := [
    .named (.record ⟨10, [⟨"namespace", .str "\"c\"", none⟩], false, "R",
      [⟨20, .mk [] (.named "S" none false) none, [⟨22, [], "s", none, none, none, none⟩]⟩,
       ⟨25, .mk [] (.named "d.T" none true) none, [⟨27, [], "t", none, none, none, none⟩]⟩], none⟩) none,
    .named (.record ⟨30, [], false, "b.S",
      [⟨40, .mk [] (.named "R" none false) none, [⟨42, [], "r", none, none, none, none⟩]⟩], none⟩) none,
    .message ⟨50, [], some (.named "S" none false), "m",
      [⟨53, .mk [] (.named "R" none false) none, ⟨55, [], "r", none, none, none, none⟩, none⟩], false, [], none⟩,
    .named (.enum ⟨60, [], "E", [("A", none)], none, none⟩) none] }

/-- The tokens of `exScopes` up to the protocol. -/
def exScopesTokens : List Token := [docTok "P", blank, other "@"]

/-- The hypothesis of C28 is met: `R` is in `c` with references resolved in `c`, the next record is
in `b`, the message's references and the enum are in the protocol's namespace `a.b`. -/
example : readFile exScopesTokens exScopes = .ok
    { file := .protocol ⟨"P", some "a.b", some "P", [], [], [("m", ⟨none, [], [.mk "r" (.ref "R" (some "a.b") [] none) none none none [] []],
          .ref "S" (some "a.b") [] none, none, false⟩)]⟩,
      decls := [
        .type (.record "R" (some "c") none
          [.mk "s" (.ref "S" (some "c") [] none) none none none [] [],
           .mk "t" (.union [.prim .null, .ref "T" (some "d") [] none] true) none none none [] []]
          false [] []) none [],
        .type (.record "S" (some "b") none
          [.mk "r" (.ref "R" (some "b") [] none) none none none [] []] false [] []) none [],
        .type (.enum "E" (some "a.b") none ["A"] none [] []) none []],
      orphans := [], warnings := [] } := by rfl

end Avdl.Props
