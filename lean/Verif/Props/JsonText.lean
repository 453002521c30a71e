import Verif.Lemmas.JsonPretty
import Verif.Serialize
/-!
# Properties: JSON text

C43: what is written is JSON and denotes the document.
C44: imported JSON files are read by the grammar of JSON, with comments.
-/

namespace Avdl.Props

open Avdl.Spec Avdl.Lemmas

/-! ## C44: reading -/

/-- **C44.** A text is accepted, with the document `j`, exactly if it is JSON with comments, nested
at most 127 deep, that denotes `j`. -/
theorem C44_reads_grammar [JsonFloats] (text : String) (j : Json) :
    parseJsonWithComments text = some j ↔ CommentedJson 127 text.toList j :=
  ⟨parseJsonWithComments_sound, parseJsonWithComments_of⟩

/-- **C44.** Plain JSON is read as what it denotes. -/
theorem C44_reads_plain [JsonFloats] (text : String) (j : Json) (h : JsonText 127 text.toList j) :
    parseJsonWithComments text = some j := (C44_reads_grammar text j).2 (plain_commented h)

/-- **C44.** A text denotes at most one document. -/
theorem C44_unambiguous [JsonFloats] {d d' : Nat} {text : List Char} {j j' : Json}
    (h : CommentedJson d text j) (h' : CommentedJson d' text j') : j = j' := by
  have key : ∀ {d : Nat} {j : Json}, CommentedJson d text j → ∃ cs, stripFrom .top text = some cs ∧
      ∀ e, d ≤ e → ∃ rest, readValue (cs.length + 1) e cs = some (j, rest) := by
    rintro d j ⟨w, cs, w', hw, hv, hw', rfl⟩
    obtain ⟨v, h1, h2⟩ := blank_stripped hw
    obtain ⟨ds, h3, h4⟩ := val_stripped hv
    obtain ⟨v', h5, h6⟩ := blankEnd_stripped hw'
    refine ⟨v ++ ds ++ v', ?_, fun e he => ⟨v', ?_⟩⟩
    · rw [(h2.append h4) w', h6]
      rfl
    · rw [List.append_assoc]
      exact readValue_of (deeper he h3) _ v v' h1
        (by have := spaces_stop h5 nil_stop; simpa using this) (by simp; omega)
  obtain ⟨cs, h1, h2⟩ := key h
  obtain ⟨cs', h3, h4⟩ := key h'
  rw [h1] at h3
  cases h3
  obtain ⟨r, h5⟩ := h2 (max d d') (Nat.le_max_left ..)
  obtain ⟨r', h6⟩ := h4 (max d d') (Nat.le_max_right ..)
  rw [h5] at h6
  cases h6
  rfl

/-! ## C43: writing -/

/-- **C43.** What is written is JSON and denotes the document. -/
theorem C43_written_text [JsonFloats] (j : Json) (h : Storable j) :
    JsonText (nesting j) (prettyJson j).toList j :=
  ⟨[], prettyFrom 0 j, [], nil_spaces, pretty_val j 0 _ h (Nat.le_refl _), nil_spaces, by
    simp [prettyJson]⟩

/-- **C43.** Different documents are written differently. -/
theorem C43_distinct [JsonFloats] (j j' : Json) (h : Storable j) (h' : Storable j')
    (he : prettyJson j = prettyJson j') : j = j' := by
  have h1 := C43_written_text j h
  rw [he] at h1
  exact C44_unambiguous (plain_commented h1) (plain_commented (C43_written_text j' h'))

/-- **C43 (partial).** What is written is read back as the same document, whether or not a line
feed follows.  Full property: for all documents; it fails beyond 127 levels of nesting
(`C43_fails_deep`). -/
theorem C43_read_back_partial [JsonFloats] (j : Json) (h : Storable j) (hn : nesting j ≤ 127) :
    parseJsonWithComments (prettyJson j) = some j ∧
      parseJsonWithComments (prettyJson j ++ "\n") = some j := by
  have hv := pretty_val j 0 127 h hn
  constructor
  · exact C44_reads_plain _ _ ⟨[], _, [], nil_spaces, hv, nil_spaces, by simp [prettyJson]⟩
  · exact C44_reads_plain _ _ ⟨[], _, ['\n'], nil_spaces, hv, nil_spaces.cons (by decide), by
      simp [prettyJson]⟩

/-- Nested array types. -/
def nestedArrayType : Nat → Schema
  | 0 => .prim .int
  | n + 1 => .array (nestedArrayType n) []

/-- The document of nested array types. -/
def nestedArraySchema : Nat → Json
  | 0 => .str "int"
  | n + 1 => .obj [("items", nestedArraySchema n), ("type", .str "array")]

theorem nested_written (lk : Lookup) (n : Nat) (ns : Option String) (k : Known) :
    schemaToJson lk (n + 1) (nestedArrayType n) ns k = some (nestedArraySchema n, k) := by
  induction n with
  | zero => rfl
  | succ n ih =>
    unfold nestedArrayType schemaToJson
    simp only [ih]
    rfl

theorem nesting_schema (n : Nat) : nesting (nestedArraySchema n) = n := by
  induction n with
  | zero => rfl
  | succ n ih => simp [nestedArraySchema, nesting, nestingMap, ih]

theorem storable_schema [JsonFloats] (n : Nat) : Storable (nestedArraySchema n) := by
  induction n with
  | zero => simp [nestedArraySchema, Storable]
  | succ n ih => simp [nestedArraySchema, Storable, StorableMap, ih]

/-- **Finding.** `serde_json` reads at most 127 levels of nesting but writes any number: the
document of 128 nested array types cannot be read back. -/
theorem C43_fails_deep [JsonFloats] (n : Nat) (h : 127 < n) :
    schemaToJson [] (n + 1) (nestedArrayType n) none [] = some (nestedArraySchema n, []) ∧
      Storable (nestedArraySchema n) ∧
      parseJsonWithComments (prettyJson (nestedArraySchema n)) = none := by
  refine ⟨nested_written [] n none [], storable_schema n, ?_⟩
  cases hp : parseJsonWithComments (prettyJson (nestedArraySchema n)) with
  | none => rfl
  | some j =>
    exfalso
    have h1 := (C44_reads_grammar _ _).1 hp
    have h2 := C44_unambiguous h1 (plain_commented (C43_written_text _ (storable_schema n)))
    subst h2
    obtain ⟨w, cs, w', -, hv, -, -⟩ := h1
    have := nesting_le hv
    rw [nesting_schema] at this
    omega

/-! ### Examples -/

/-- A table with a single floating point number. -/
@[instance_reducible] def exJsonFloats : JsonFloats where
  read cs := if cs = ['-', '1', '.', '5', 'e', '3'] then some (true, 375, 2) else none
  write _ _ _ := ['-', '1', '.', '5', 'e', '3']

attribute [local instance] exJsonFloats

/-- The reader on a text with comments of both kinds, escapes, a surrogate pair, a key given twice,
all kinds of numbers, and a comment at the end that no line feed ends. -/
example : parseJsonWithComments "/* a **/ {\"k\": 1, // b\n \"k\":[-9223372036854775808,true,\"/*\\u00e9\\ud83d\\uDE00\\n\"]} // c" =
    some (.obj [("k", .arr [.num (.int (-9223372036854775808)), .bool true, .str "/*é😀\n"])]) := by
  decide +kernel

example : parseJsonWithComments "[18446744073709551615,-1.5e3,{},[]]" =
    some (.arr [.num (.int 18446744073709551615), .num (.float true 375 2), .obj [], .arr []]) := by
  decide +kernel

/-- Rejected texts: a trailing comma, a leading zero, an unpaired surrogate, a raw control
character, an unclosed comment, a hash comment, two documents. -/
example : ["[1,]", "01", "\"\\ud83d\"", "\"\t\"", "1/*", "#\n1", "1 2", "", "-", "1.", "/1"].all
    (fun t => (parseJsonWithComments t).isNone) = true := by decide +kernel

/-- A document the theorems apply to. -/
def exTextDocument : Json :=
  .obj [("a", .arr [.num (.int (-3)), .num (.float true 375 2), .str "\"\x01"]), ("b", .obj [])]

theorem exTextDocument_ok : Storable exTextDocument ∧ nesting exTextDocument = 2 := by
  refine ⟨?_, by decide +kernel⟩
  simp only [exTextDocument, Storable, StorableMap, StorableList, Survives]
  refine ⟨by decide, ⟨by decide, ?_, trivial, trivial⟩, ⟨List.Pairwise.nil, trivial⟩, trivial⟩
  have hd : ∀ c : Char, (∃ d, digitVal 10 c = some d) → SomeDigits [c] := by
    rintro c ⟨d, hd⟩
    exact ⟨by simp, _, .cons ((digitVal_iff (by omega)).1 hd) .nil⟩
  exact JsonNumber.float (sign := ['-']) (ds := ['1']) (frac := ['.', '5']) (exp := ['e', '3'])
    (f := (true, 375, 2)) (.inr rfl) ⟨hd _ ⟨1, rfl⟩, by decide⟩ (.inr ⟨_, hd _ ⟨5, rfl⟩, rfl⟩)
    (.inr ⟨'e', [], ['3'], .inl rfl, .inl rfl, hd _ ⟨3, rfl⟩, rfl⟩) (by simp) rfl

example : prettyJson exTextDocument =
    "{\n  \"a\": [\n    -3,\n    -1.5e3,\n    \"\\\"\\u0001\"\n  ],\n  \"b\": {}\n}" := by
  decide +kernel

example : parseJsonWithComments (prettyJson exTextDocument) = some exTextDocument :=
  (C43_read_back_partial _ exTextDocument_ok.1 (by rw [exTextDocument_ok.2]; decide)).1

/-- A text of the grammar, by the reader. -/
example : CommentedJson 127 "[1,/**/2]//".toList (.arr [.num (.int 1), .num (.int 2)]) :=
  (C44_reads_grammar _ _).1 (by decide +kernel)

end Avdl.Props
