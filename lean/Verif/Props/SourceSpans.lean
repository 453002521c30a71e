import Verif.Lemmas.Positions
import Verif.Lemmas.UndefinedOrder
import Verif.Props.Reimport
/-!
# C36, C30, C47: positions in the source

`Spec.Spells text span word` (Spec/SourceSpans.lean) says that the bytes of the text a span denotes
are the word.  `Spec.PointsAt` etc. (Spec/Positions.lean) say it of the texts of a compilation.
-/

namespace Avdl.Props
open Spec Spec.Lexing

section
variable [CharTables] [FloatTables] [CaseTables]

/-! ## C36: positions of tokens and in parse trees -/

omit [CharTables] [FloatTables] [CaseTables] in
/-- **C36, tokens.**  The span of a token, counted in bytes, is where its text stands in the source,
and its number is its place in the token stream. -/
theorem C36_token_positions (file : String) (text : List Char) :
    ∀ t ∈ parserTokens file 0 (streamOf 0 (lex text)),
      (∃ s, t.span = some s ∧ s.file = file ∧ Spells text s t.text.toList) ∧
      ∃ x, (streamOf 0 (lex text))[t.index]? = some x ∧ x.kind = t.kind ∧ x.text = t.text := by
  intro t ht
  refine ⟨(parserTokens_placed file text t ht).1, ?_⟩
  obtain ⟨j, x, hj, hi, hk, _, htx, _⟩ := parserTokens_place ht
  rw [Nat.zero_add] at hi
  exact ⟨x, hi ▸ hj, hk, htx⟩

omit [CharTables] [FloatTables] [CaseTables] in
/-- **C36, C30, numbers.**  The parser is given the tokens of the stream that are not documentation
comments, in order. -/
theorem C36_token_numbers (file : String) (l : List LexToken) :
    (parserTokens file 0 l).map (·.index) =
      (List.range l.length).filter fun n => (l[n]?).any (·.kind != .doc) := by
  have := parserTokens_indices (file := file) l 0
  simpa [List.range_eq_range'] using this

omit [CharTables] [FloatTables] [CaseTables] in
/-- **C36, parse trees.**  Every position in the parse tree of a source text is where the thing it
belongs to stands in that text. -/
theorem C36_positions_in_source {file text : String} {src : Source}
    (h : parseSource file text = some src) :
    ∀ l ∈ fileSpans src.ast, l.Right file text.toList src.tokens := source_places h

omit [CharTables] [FloatTables] [CaseTables] in
/-- **C36, nodes.**  The span of a node of the parse tree, made from its tokens, reaches in the source
from the first character of the first token to the last character of the last one. -/
theorem C36_node_positions {file : String} {text : List Char} {node : List PTok}
    (hi : node <:+: parserTokens file 0 (streamOf 0 (lex text))) (hne : node ≠ []) :
    ∃ s, nodeSpan node = some s ∧ s.file = file ∧ Covers text s node := covers_node hi hne

/-! ## C47: undefined names and clashes are reported where they are written -/

/-- **C47.**  When a compilation fails because of undefined names, each of them comes with a position
where it is written, in the compiled text or an imported IDL file; or it is written in a JSON file
that was imported, and comes without. -/
theorem C47_undefined_where_written {w : World} (hw : w.parse = parseSource) {b : Builder}
    {fuel : Nat} {text name : String} {dir : Path} {path : Option Path}
    {xs : List (String × Option Span)}
    (h : (b.compile w fuel text name dir path).1 = .error (.undefined xs)) :
    ∃ file c, parseAndResolve w b.importDirs fuel text name dir path Ctx.new = (.ok file, c) ∧
      ∀ x ∈ xs, Reported w (c.jsonImports.map Prod.fst) text name x := by
  obtain ⟨file, c, h1, _, h2⟩ := (compile_reported hw h).1 xs rfl
  exact ⟨file, c, h1, h2⟩

/-- **C47, clashes.**  When a compilation fails because a name is defined twice or otherwise may not
be defined, the position is that of the first token of a type declaration. -/
theorem C47_clash_where_declared {w : World} (hw : w.parse = parseSource) {b : Builder}
    {fuel : Nat} {text name : String} {dir : Path} {path : Option Path} {re : RegErr}
    {span : Option Span}
    (h : (b.compile w fuel text name dir path).1 = .error (.register re span)) :
    ∃ s, span = some s ∧ PointsAtDeclaration w text name s :=
  (compile_reported hw h).2 (by simp)

/-- One position is not after the other: by file, then by offset. -/
def NotAfter (s s' : Span) : Prop :=
  s.file < s'.file ∨ (s.file = s'.file ∧ s.offset ≤ s'.offset)

omit [CharTables] [FloatTables] [CaseTables] in
/-- **C47, order.**  The names with positions are reported in the order of these, the names without
come after them. -/
theorem C47_in_order (file : IdlFile) (r : Registry) :
    ∃ (placed : List (String × Span)) (unplaced : List String), undefinedNames file r =
        placed.map (fun x => (x.1, some x.2)) ++
        unplaced.map (fun x => (x, none)) ∧
      placed.Pairwise fun (x y : String × Span) => NotAfter x.2 y.2 := by
  let l := stableSort spanLe (dedupNames [] (r.validateReferences ++ fileUnresolved r file))
  have e1 := withSpan_placed (xs := l.filter fun x => x.2.isSome)
    (fun x hx => (List.mem_filter.mp hx).2)
  refine ⟨withSpan (l.filter fun x => x.2.isSome), (l.filter fun x => !x.2.isSome).map Prod.fst,
    ?_, ?_⟩
  · rw [e1.1, List.map_map]
    refine congrArg (l.filter (fun x => x.2.isSome) ++ ·) ?_
    refine (List.map_id _).symm.trans (List.map_congr_left fun x hx => ?_)
    have := (List.mem_filter.mp hx).2
    obtain ⟨n, sp⟩ := x
    cases sp with
    | none => rfl
    | some s => cases this
  · have hs : (l.filter fun x => x.2.isSome).Pairwise fun x y => spanLe x y = true :=
      (stableSort_sorted _).sublist List.filter_sublist
    rw [← e1.1, List.pairwise_map] at hs
    refine hs.imp fun {x y} h => ?_
    exact spanLe_iff.mp h

omit [CharTables] [FloatTables] [CaseTables] in
/-- **C47, which place.**  A name comes with the place of the first of all references to it, in the
order of the registered types and then the main schema or the messages. -/
theorem C47_which_place (file : IdlFile) (r : Registry) (x : String × Option Span) :
    x ∈ undefinedNames file r ↔
      (r.validateReferences ++ fileUnresolved r file).find? (fun y => y.1 == x.1) = some x := by
  rw [(undefinedNames_perm file r).mem_iff, dedupNames_first]
  simp

/-- What a diagnostic says: a name where it is written, with a suggestion; or names from imported
JSON files, at an import statement, and all these files. -/
def RightNote (w : World) (text name : String) (files : List Path) (registered : List String)
    (n : Note) : Prop :=
  (∃ x h, n.names = [x] ∧ PointsAt w text name n.span x ∧
    suggestSimilarName x registered = some h ∧ n.help = h.map .hint ∧ n.label = none) ∨
  ((∀ x ∈ n.names, JsonMentions w files x) ∧ PointsAtWord w text name n.span "import" ∧
    n.help = some (.importedFiles files))

/-- **C47, the diagnostic.**  A compilation that fails because of undefined names does not panic when
it makes the diagnostic.  The diagnostics together name every undefined name once, in that order,
and each is at the right place. -/
theorem C47_diagnostic {w : World} (hw : w.parse = parseSource) {b : Builder} {fuel : Nat}
    {text name : String} {dir : Path} {path : Option Path} {xs : List (String × Option Span)}
    (h : (b.compile w fuel text name dir path).1 = .error (.undefined xs)) :
    ∃ file c main related,
      parseAndResolve w b.importDirs fuel text name dir path Ctx.new = (.ok file, c) ∧
      undefinedReport b w fuel text name dir path = some (some (.diagnostic main related)) ∧
      (main :: related).flatMap (·.names) = xs.map Prod.fst ∧
      ∀ n ∈ main :: related,
        RightNote w text name (c.jsonImports.map Prod.fst) c.registry.names n := by
  obtain ⟨file, c, hp, hxs, hrep⟩ := (compile_reported hw h).1 xs rfl
  have hne : xs ≠ [] := by
    intro e
    subst e
    have h' := h
    unfold Builder.compile at h'
    simp only [hp, validateAllReferences, ← hxs] at h'
    cases h'
  obtain ⟨placed, unplaced, he, _⟩ := C47_in_order file c.registry
  rw [← hxs] at he
  have hu : undefinedReport b w fuel text name dir path =
      some (undefinedError c.registry.names c.jsonImports name xs) := by
    unfold undefinedReport
    simp only [hp]
    cases hx : undefinedNames file c.registry with
    | nil => exact absurd (hxs.trans hx) hne
    | cons a l => rw [hxs, hx]
  have w1 := withSpan_placed (xs := placed.map fun x => (x.1, some x.2))
    (fun x hx => by obtain ⟨y, _, rfl⟩ := List.mem_map.mp hx; rfl)
  have w2 := withSpan_unplaced (xs := unplaced.map fun x => (x, (none : Option Span)))
    (fun x hx => by obtain ⟨y, _, rfl⟩ := List.mem_map.mp hx; rfl)
  have hws : withSpan xs = placed := by
    rw [he, withSpan_append, w2.1, List.append_nil]
    have inj : ∀ a b : String × Span, (a.1, some a.2) = (b.1, some b.2) → a = b := by
      rintro ⟨a, a'⟩ ⟨b, b'⟩ h
      injection h with h1 h2
      injection h2 with h2
      simp only at h1 h2
      rw [h1, h2]
    exact (List.map_inj_right inj).mp w1.1
  have hwo : withoutSpan xs = unplaced := by
    rw [he, withoutSpan_append, w1.2, w2.2, List.nil_append, List.map_map]
    exact List.map_id _
  have hplaced : ∀ x ∈ placed, PointsAt w text name x.2 x.1 := fun x hx =>
    hrep (x.1, some x.2) (he ▸ List.mem_append_left _ (List.mem_map.mpr ⟨x, hx, rfl⟩))
  have hunplaced : ∀ x ∈ unplaced, JsonMentions w (c.jsonImports.map Prod.fst) x := fun x hx =>
    hrep (x, none) (he ▸ List.mem_append_right _ (List.mem_map.mpr ⟨x, hx, rfl⟩))
  have hj := resolved_jsonImports hw hp
  -- what names without position say about the imports
  have himp : unplaced ≠ [] → ∃ p s rest, c.jsonImports = (p, some s) :: rest ∧
      PointsAtWord w text name s "import" := by
    intro hn
    obtain ⟨x, hx⟩ := List.exists_mem_of_ne_nil _ hn
    obtain ⟨p, hpm, _⟩ := hunplaced x hx
    cases hc : c.jsonImports with
    | nil => rw [hc] at hpm; cases hpm
    | cons a rest =>
      obtain ⟨p, sp⟩ := a
      obtain ⟨_, s, e, hs⟩ := hj (p, sp) (hc ▸ List.mem_cons_self ..)
      simp only at e
      subst e
      exact ⟨p, s, rest, rfl, hs⟩
  have hnames : xs.map Prod.fst = placed.map Prod.fst ++ unplaced := by
    rw [he, List.map_append, List.map_map, List.map_map]
    exact congrArg (placed.map Prod.fst ++ ·) (List.map_id _)
  cases hpl : placed with
  | nil =>
    subst hpl
    have hn : unplaced ≠ [] := by
      rintro rfl
      exact hne he
    obtain ⟨p, s, rest, hc, hs⟩ := himp hn
    refine ⟨file, c, ⟨s, unplaced, some .importContains, importHelp c.jsonImports⟩, [], hp, ?_, ?_, ?_⟩
    · rw [hu]
      simp only [undefinedError, hws, hwo]
      rw [hc]
      rfl
    · rw [hnames]
      exact List.append_nil _
    · intro n hnm
      simp only [List.mem_singleton] at hnm
      subst hnm
      refine .inr ⟨hunplaced, hs, ?_⟩
      rw [hc]; rfl
  | cons x rest =>
    obtain ⟨h0, m1, m2⟩ := placedNote_total c.registry.names x.1 x.2
    obtain ⟨ns, n1, n2, n3⟩ := placedNotes_total c.registry.names rest
    have hmap : ns.map (·.names) = rest.map fun x => [x.1] := by
      have := congrArg (List.map Prod.fst) n2
      simpa [List.map_map, Function.comp_def] using this
    have hfst : ns.flatMap (·.names) = rest.map Prod.fst := by
      rw [List.flatMap_def, hmap]
      clear hmap n2 n1 hpl
      induction rest with
      | nil => rfl
      | cons a l ih => exact congrArg (a.1 :: ·) ih
    have hns : ∀ n ∈ ns, RightNote w text name (c.jsonImports.map Prod.fst) c.registry.names n := by
      intro n hn
      obtain ⟨l1, x', h', l2, l3, l4⟩ := n3 n hn
      have : (n.names, n.span) ∈ ns.map fun n => (n.names, n.span) := List.mem_map.mpr ⟨n, hn, rfl⟩
      rw [n2] at this
      obtain ⟨y, hy, e⟩ := List.mem_map.mp this
      injection e with e1 e2
      have hxy : x' = y.1 := by rw [l2] at e1; injection e1 with e1 _; exact e1.symm
      refine .inl ⟨x', h', l2, ?_, l3, l4, l1⟩
      rw [hxy, ← e2]
      exact hplaced y (hpl ▸ List.mem_cons_of_mem _ hy)
    have hmain : RightNote w text name (c.jsonImports.map Prod.fst) c.registry.names
        ⟨x.2, [x.1], none, h0.map .hint⟩ :=
      .inl ⟨x.1, h0, rfl, hplaced x (hpl ▸ List.mem_cons_self ..), m1, rfl, rfl⟩
    by_cases hn : unplaced = []
    · subst hn
      refine ⟨file, c, ⟨x.2, [x.1], none, h0.map .hint⟩, ns, hp, ?_, ?_, ?_⟩
      · rw [hu]
        simp only [undefinedError, hws, hwo, hpl, m2, n1, importNotes]
        simp
      · rw [hnames, hpl, List.flatMap_cons, hfst]
        simp
      · intro n hnm
        rcases List.mem_cons.mp hnm with rfl | hnm
        · exact hmain
        · exact hns n hnm
    · obtain ⟨p, s, irest, hc, hs⟩ := himp hn
      have hin := importNotes_total c.registry.names (path := p) (s := s) (imports := irest) name
        unplaced
      rw [← hc] at hin
      refine ⟨file, c, ⟨x.2, [x.1], none, h0.map .hint⟩,
        ns ++ unplaced.map fun x => ⟨s, [x], some (.referencedIn x p),
          some (.importedFiles (p :: irest.map Prod.fst))⟩, hp, ?_, ?_, ?_⟩
      · rw [hu]
        simp only [undefinedError, hws, hwo, hpl, m2, n1, hin]
        simp
      · rw [hnames, hpl, List.flatMap_cons, List.flatMap_append, hfst]
        simp [List.flatMap_map]
      · intro n hnm
        rcases List.mem_cons.mp hnm with rfl | hnm
        · exact hmain
        · rcases List.mem_append.mp hnm with hnm | hnm
          · exact hns n hnm
          · obtain ⟨y, hy, rfl⟩ := List.mem_map.mp hnm
            refine .inr ⟨fun z hz => ?_, hs, ?_⟩
            · simp only [List.mem_singleton] at hz
              subst hz
              exact hunplaced _ hy
            · rw [hc]; rfl

end

/-! ## The hypotheses are met -/

section
attribute [local instance] asciiTables exFloats exCases exJsonFloats

/-- The undefined names of a failed compilation. -/
def undefinedOf (r : Except CompileErr CompileOutput) : Option (List (String × Option Span)) :=
  match r with
  | .error (.undefined xs) => some xs
  | _ => none

theorem undefinedOf_some {r : Except CompileErr CompileOutput} {xs : List (String × Option Span)}
    (h : undefinedOf r = some xs) : r = .error (.undefined xs) := by
  unfold undefinedOf at h
  split at h
  · injection h with h; subst h; rfl
  · cases h

/-- The position of a clash. -/
def clashOf (r : Except CompileErr CompileOutput) : Option (Option Span) :=
  match r with
  | .error (.register _ span) => some span
  | _ => none

/-- Files with undefined names: an IDL file, and two JSON files of which the second mentions an
undefined name. -/
def exUndefined (p : Path) : Option String :=
  if p = "b" then some "/** é */ protocol Q { record S { Tango t; } }"
  else if p = "c.avsc" then some "{\"type\":\"record\",\"name\":\"C\",\"fields\":[]}"
  else if p = "d.avsc" then
    some "{\"type\":\"record\",\"name\":\"D\",\"fields\":[{\"name\":\"z\",\"type\":\"Z\"}]}"
  else none

/-- A text that imports them. -/
def exUndefinedText : String :=
  "protocol P { import schema \"c.avsc\"; import schema \"d.avsc\"; import idl \"b\"; record R { Srr s; } }"

/-- The same without other undefined names. -/
def exJsonOnlyText : String :=
  "protocol P { import schema \"c.avsc\"; import schema \"d.avsc\"; }"

/-- The compilations. -/
def exUndefinedRun (text : String) : Except CompileErr CompileOutput :=
  (Builder.new.compile (exReimportWorld exUndefined) 9 text "a" "" (some "a")).1

example : undefinedOf (exUndefinedRun exUndefinedText) =
    some [("Srr", some ⟨88, 3, "a"⟩), ("Tango", some ⟨34, 5, "b"⟩), ("Z", none)] := by decide +kernel

example : clashOf (exUndefinedRun "protocol P { import idl \"b\"; record S { } }") =
    some (some ⟨29, 6, "a"⟩) := by decide +kernel

/-! ## Where C47 fails -/

/-- A message that mentions an undefined name, and after it a record that does. -/
def exLaterText : String := "protocol P { void m(X x); record R { X y; } }"

/-- What is reported, and where the message mentions the name. -/
def exLaterCheck : Bool :=
  decide (undefinedOf (exUndefinedRun exLaterText) = some [("X", some ⟨37, 1, "a"⟩)]) &&
  match parseIdl (exReimportWorld exUndefined) exLaterText "a" with
  | .ok (file, _, _) => file.messages.any fun nm => nm.2.request.any fun f =>
      (unresolvedRefs (fun _ => false) f.schema).contains ("X", some ⟨20, 1, "a"⟩)
  | .error _ => false

theorem exLater : exLaterCheck = true := by decide +kernel

attribute [local irreducible] exUndefinedRun exReimportWorld

/-- **C47 fails for the first place.**  An undefined name is not always reported at the first place
in the file where it is written: here the parameter of a message comes before the field of a
record, which is reported.  (The comment in the code says that the earliest is retained.) -/
theorem C47_fails_first_place : ∃ (w : World) (text name : String) (s s' : Span) (file : IdlFile)
    (decls : List DeclItem) (ws : List Warning),
    w.parse = parseSource ∧
    (Builder.new.compile w 9 text name "" (some name)).1 = .error (.undefined [("X", some s)]) ∧
    parseIdl w text name = .ok (file, decls, ws) ∧
    (∃ nm ∈ file.messages, MessageRefersTo nm.2 "X" (some s')) ∧
    s'.file = s.file ∧ s'.offset < s.offset := by
  have h := exLater
  unfold exLaterCheck at h
  rw [Bool.and_eq_true] at h
  obtain ⟨h1, h2⟩ := h
  cases hp : parseIdl (exReimportWorld exUndefined) exLaterText "a" with
  | error e => rw [hp] at h2; cases h2
  | ok r =>
    obtain ⟨file, decls, ws⟩ := r
    rw [hp] at h2
    simp only [List.any_eq_true, List.contains_iff_mem] at h2
    obtain ⟨nm, hnm, f, hf, hm⟩ := h2
    refine ⟨exReimportWorld exUndefined, exLaterText, "a", ⟨37, 1, "a"⟩, ⟨20, 1, "a"⟩, file, decls, ws, ?_,
      ?_, hp, ⟨nm, hnm, .parameter hf ((mem_unresolvedRefs _ _ _ _).mp hm).1⟩, ?_⟩
    · unfold exReimportWorld; rfl
    · have := undefinedOf_some (of_decide_eq_true h1)
      unfold exUndefinedRun at this
      exact this
    · decide

/-- A check that a JSON file does not mention a name. -/
def notInJson (w : World) (p : Path) (x : String) : Bool :=
  match readJson w p with
  | .ok j => (jsonTypes none [j] ++ protocolJsonTypes j).all (fun t =>
      (unresolvedRefs (fun _ => false) t).all fun y => y.1 != x) && (protocolJsonMessages j).isEmpty
  | .error _ => true

theorem notInJson_sound {w : World} {p : Path} {x : String} (h : notInJson w p x = true) :
    ¬ JsonMentions w [p] x := by
  rintro ⟨p', hp, j, hj, hm⟩
  simp only [List.mem_singleton] at hp
  subst hp
  unfold notInJson at h
  rw [hj] at h
  simp only [Bool.and_eq_true, List.all_eq_true, List.isEmpty_iff] at h
  rcases hm with ⟨t, ht, hr⟩ | ⟨nm, hnm, _⟩
  · have := h.1 t ht (x, none) ((mem_unresolvedRefs _ _ _ _).mpr ⟨hr, rfl⟩)
    simp at this
  · rw [h.2] at hnm; cases hnm

/-- The report of the example. -/
def exWrongFile : Option (Option UndefinedError) :=
  undefinedReport Builder.new (exReimportWorld exUndefined) 9 exUndefinedText "a" "" (some "a")

theorem exWrongFile_check : (decide (exWrongFile =
    some (some (.diagnostic ⟨⟨88, 3, "a"⟩, ["Srr"], none, none⟩
      [⟨⟨34, 5, "b"⟩, ["Tango"], none, none⟩,
       ⟨⟨13, 6, "a"⟩, ["Z"], some (.referencedIn "Z" "c.avsc"),
        some (.importedFiles ["c.avsc", "d.avsc"])⟩]))) &&
    notInJson (exReimportWorld exUndefined) "c.avsc" "Z") = true := by decide +kernel

/-- **C47 fails for the file that is named.**  The text "type `x` referenced in imported file `p`"
can name a file that does not mention the type: it is always the first JSON import. -/
theorem C47_fails_named_file : ∃ (w : World) (text name : String) (main : Note) (related : List Note)
    (n : Note) (x : String) (p : Path),
    w.parse = parseSource ∧
    undefinedReport Builder.new w 9 text name "" (some name) =
      some (some (.diagnostic main related)) ∧
    n ∈ related ∧ n.label = some (.referencedIn x p) ∧ ¬ JsonMentions w [p] x := by
  have h := exWrongFile_check
  rw [Bool.and_eq_true] at h
  have h1 := of_decide_eq_true h.1
  unfold exWrongFile at h1
  refine ⟨exReimportWorld exUndefined, exUndefinedText, "a", _, _, _, "Z", "c.avsc", ?_, h1,
    List.mem_cons_of_mem _ (List.mem_cons_self ..), rfl, notInJson_sound h.2⟩
  unfold exReimportWorld
  rfl

end

end Avdl.Props
