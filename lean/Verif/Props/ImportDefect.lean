import Verif.Lemmas.ImportDefect
import Verif.Props.Problem
/-!
# C59: the first defect of an imported document

When an imported JSON document is not a schema or protocol, the error names its first defect and the
way to it.
-/

namespace Avdl.Props
open Spec

section
variable [CharTables]

/-- **C59, schema files.**  The import of a schema document fails with an error exactly when the
document has that defect in that place. -/
theorem C59_schema (j : Json) (r : Registry) (e : ImportErr) :
    importSchema j r = .error e ↔ SchemaDefect j e.trail e.defect := importSchema_error

/-- **C59, protocol files.** -/
theorem C59_protocol (j : Json) (r : Registry) (e : ImportErr) :
    importProtocol j r = .error e ↔ ProtocolDefect j e.trail e.defect := importProtocol_error

/-- **C59, one defect.**  A schema document has a first defect exactly when it is not in order, and
only one. -/
theorem C59_schema_first (j : Json) :
    (¬ ImportableSchema j ↔ ∃ t d, SchemaDefect j t d) ∧
    ∀ t d t' d', SchemaDefect j t d → SchemaDefect j t' d' → t = t' ∧ d = d' := by
  constructor
  · rw [← importSchema_isOk (r := [])]
    cases h : importSchema j [] with
    | ok r =>
      simp only [Except.ok.injEq, exists_eq', not_true_eq_false, false_iff, not_exists]
      intro t d hd
      rw [(C59_schema j [] ⟨t, d⟩).mpr hd] at h
      cases h
    | error e =>
      simp only [reduceCtorEq, exists_false, not_false_eq_true, true_iff]
      exact ⟨_, _, importSchema_error.mp h⟩
  · intro t d t' d' h h'
    have h1 := (C59_schema j [] ⟨t, d⟩).mpr h
    rw [(C59_schema j [] ⟨t', d'⟩).mpr h'] at h1
    injection h1 with h1
    injection h1 with a b
    exact ⟨a.symm, b.symm⟩

/-- **C59, one defect.**  The same for protocol documents. -/
theorem C59_protocol_first (j : Json) :
    (¬ ImportableProtocol j ↔ ∃ t d, ProtocolDefect j t d) ∧
    ∀ t d t' d', ProtocolDefect j t d → ProtocolDefect j t' d' → t = t' ∧ d = d' := by
  constructor
  · rw [← importProtocol_isOk (r := [])]
    cases h : importProtocol j [] with
    | ok r =>
      simp only [Except.ok.injEq, exists_eq', not_true_eq_false, false_iff, not_exists]
      intro t d hd
      rw [(C59_protocol j [] ⟨t, d⟩).mpr hd] at h
      cases h
    | error e =>
      simp only [reduceCtorEq, exists_false, not_false_eq_true, true_iff]
      exact ⟨_, _, importProtocol_error.mp h⟩
  · intro t d t' d' h h'
    have h1 := (C59_protocol j [] ⟨t, d⟩).mpr h
    rw [(C59_protocol j [] ⟨t', d'⟩).mpr h'] at h1
    injection h1 with h1
    injection h1 with a b
    exact ⟨a.symm, b.symm⟩

/-- **C59, compilation.**  When a compilation fails because an imported document is not a schema or
protocol, the error has the first defect of a document that the file at that path contains. -/
theorem C59_compiled {w : World} [FloatTables] [CaseTables] {b : Builder} {fuel : Nat}
    {text name : String} {dir : Path} {path : Option Path} {span : Option Span} {p : Path}
    {e : ImportErr}
    (h : (b.compile w fuel text name dir path).1 =
      .error (.importFailed span (.importJson p e))) :
    ∃ text j, w.read p = some text ∧ w.parseJson text = some j ∧
      (SchemaDefect j e.trail e.defect ∨ ProtocolDefect j e.trail e.defect) := by
  have read : ∀ {j}, readJson w p = .ok j → ∃ text, w.read p = some text ∧
      w.parseJson text = some j := by
    intro j hr
    unfold readJson at hr
    cases ht : w.read p with
    | none => rw [ht] at hr; cases hr
    | some t =>
      rw [ht] at hr
      simp only at hr
      cases hj : w.parseJson t with
      | none => rw [hj] at hr; cases hr
      | some j' => rw [hj] at hr; injection hr with hr; exact ⟨t, rfl, hr ▸ hj⟩
  cases C56_first_problem b h (by simp) with
  | file h1 =>
    unfold parseIdl at h1
    split at h1
    · cases h1
    · split at h1 <;> cases h1
  | import_ _ h2 _ => exact absurd rfl (h2.stuck_not_json _ span p e rfl)
  | event _ h2 _ h4 =>
    cases h4 with
    | @schema _ j _ _ hd =>
      obtain ⟨t, h5, h6⟩ := read (h2.json_read p j span (.inl (by simp)))
      exact ⟨t, j, h5, h6, .inl hd⟩
    | @protocol _ j _ _ hd =>
      obtain ⟨t, h5, h6⟩ := read (h2.json_read p j span (.inr (by simp)))
      exact ⟨t, j, h5, h6, .inr hd⟩

end

/-! ## Examples -/

section
attribute [local instance] asciiTables exJsonFloats

/-- The report on a schema document. -/
def exDefect (text : String) : Option ImportErr :=
  match parseJsonWithComments text with
  | some j => (match importSchema j [] with
    | .error e => some e
    | .ok _ => none)
  | none => none
/-- The report on a protocol document. -/
def exProtocolDefect (text : String) : Option ImportErr :=
  match parseJsonWithComments text with
  | some j => (match importProtocol j [] with
    | .error e => some e
    | .ok _ => none)
  | none => none

/-- The first of several defects, deep in a record. -/
example : exDefect ("{\"type\": \"record\", \"name\": \"n.R\", \"fields\": [" ++
    "{\"name\": \"a\", \"type\": \"int\"}, " ++
    "{\"name\": \"b\", \"type\": {\"type\": \"array\", \"items\": [\"null\", {\"type\": \"map\"}]}}, " ++
    "{\"type\": \"int\"}]}") = some
    ⟨[.field 1 "R", .fieldType "b", .items], .missingValues⟩ := by decide +kernel
example : exDefect "{\"type\": \"fixed\", \"name\": \"F\", \"size\": 4294967296}" =
    some ⟨[], .sizeTooLarge 4294967296⟩ := by decide +kernel
/-- The types of a protocol come before its messages. -/
example : exProtocolDefect ("{\"messages\": {\"m\": 1}, \"types\": [\"T\", {\"type\": \"zip\"}]}") =
    some ⟨[.type 1], .unknownType "zip"⟩ := by decide +kernel
/-- The parameters of a message come before its result, and that before the errors. -/
example : exProtocolDefect ("{\"messages\": {\"m\": {\"errors\": [1], \"response\": true, " ++
    "\"request\": [{\"name\": \"p\", \"type\": \"int\"}, {\"name\": \"q\"}]}}}") =
    some ⟨[.message "m", .parameter 1], .fieldMissingType⟩ := by decide +kernel
example : exProtocolDefect ("{\"messages\": {\"m\": {\"errors\": [1], \"response\": true}}}") =
    some ⟨[.message "m", .response], .invalidSchema (.bool true)⟩ := by decide +kernel
example : exProtocolDefect ("{\"messages\": {\"m\": {\"errors\": [\"E\", 1]}}}") =
    some ⟨[.message "m", .error 1], .invalidSchema (.num (.int 1))⟩ := by decide +kernel

/-- **C59 fails for unions and for full names.**  The report does not say which member of a union is
meant, nor the namespace of a record: it is the same for documents with the defect in different
places. -/
theorem C59_fails_place : ∃ (j j' k k' : Json) (e e' : ImportErr), j ≠ j' ∧ k ≠ k' ∧
    importSchema (.arr [j, j', k]) [] = .error e ∧ importSchema (.arr [j, k, j']) [] = .error e ∧
    importSchema (.arr [.obj [("fields", .arr [k]), ("name", .str "a.R"), ("type", .str "record")], k'])
      [] = .error e' ∧
    importSchema (.arr [.obj [("fields", .arr [k]), ("name", .str "b.R"), ("type", .str "record")], k'])
      [] = .error e' :=
  ⟨.str "A", .str "B", .null, .bool true, ⟨[], .invalidSchema .null⟩,
    ⟨[.field 0 "R"], .fieldNotObject⟩, by decide, by decide, by decide +kernel, by decide +kernel,
    by decide +kernel, by decide +kernel⟩

end

end Avdl.Props
