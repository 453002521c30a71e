import Verif.Lemmas.AvroJson
/-!
# C42: imported JSON documents mean what Avro says
-/

namespace Avdl.Props
open Spec

/-- **C42 (partial), schemas.** Importing a JSON schema adds the types it stands for.

Full property: without `Regular`.  It does not hold then, see the theorems below. -/
theorem C42_schema_partial [CharTables] {j : Json} {s : Schema} (h : SchemaDoc none j s)
    (hr : Regular j) (r : Registry) : importSchema j r = .ok (flattenAndRegister r s) := by
  simp only [importSchema]
  rw [schemaDoc_import h hr]

/-- **C42 (partial), protocols.** Importing a JSON protocol adds the types it stands for, in order,
and gives its messages.

Full property: without `Regular`.  It does not hold then, see the theorems below. -/
theorem C42_protocol_partial [CharTables] {j : Json} {ss : List Schema}
    {ms : List (String × Message)} (h : ProtocolDoc j ss ms) (hr : Regular j) (r : Registry) :
    importProtocol j r = .ok (ss.foldl flattenAndRegister r, ms) := by
  cases h with
  | @mk obj ns _ _ hn ht hm =>
    have h1 : ((Json.obj obj).get? "namespace").bind Json.asStr = ns := hn.eq
    simp only [importProtocol, h1]
    rcases ht with ⟨ht, rfl⟩ | ⟨l, ht, hl⟩
    · have e : (Json.obj obj).get? "types" = none := ht
      simp only [e, Option.bind_none, List.foldl_nil]
      rcases hm with ⟨hm, rfl⟩ | ⟨l, hm, hl⟩
      · simp only [Json.get?, hm]
      · simp only [Json.get?, hm]
        rw [messageDocs_import hl (by cases hr.entry hm with | obj _ h => exact h)]
    · have e : (Json.obj obj).get? "types" = some (.arr l) := ht
      simp only [e, Option.bind_some, Json.asArr]
      rw [importTypes_docs hl (by cases hr.entry ht with | arr h => exact h) r]
      rcases hm with ⟨hm, rfl⟩ | ⟨l, hm, hl⟩
      · simp only [Json.get?, hm]
      · simp only [Json.get?, hm]
        rw [messageDocs_import hl (by cases hr.entry hm with | obj _ h => exact h)]

/-- A document has one meaning. -/
theorem C42_meaning_determined {ns : Option String} {j : Json} {s s' : Schema}
    (h : SchemaDoc ns j s) (h' : SchemaDoc ns j s') (hr : Regular j) : s = s' := by
  have e := schemaDoc_import h hr
  rw [schemaDoc_import h' hr] at e
  exact (Except.ok.inj e).symm

/-! ### Violations -/

/-- `{"type":"fixed","name":"a.F","namespace":"b","size":1}`. -/
def exDottedDoc : JMap := [("name", .str "a.F"), ("namespace", .str "b"),
  ("size", .num (.int 1)), ("type", .str "fixed")]

/-- **C42 fails.** The namespace attribute beats the namespace in the name: the document stands for
`a.F` and is imported as `b.F`. -/
theorem C42_fails_dotted_name :
    SchemaDoc none (.obj exDottedDoc) (.fixed "F" (some "a") none 1 [] []) ∧
    jsonToSchema none (.obj exDottedDoc) = .ok (.fixed "F" (some "b") none 1 [] []) := by
  constructor
  · exact .fixed (size := 1) rfl (.dotted (pre := "a") rfl (by decide)) (.absent rfl) rfl (by decide)
      (.absent rfl)
  · rfl

/-- `{"type":"bytes","logicalType":"decimal","precision":0}`. -/
def exZeroPrecisionDoc : JMap := [("logicalType", .str "decimal"), ("precision", .num (.int 0)),
  ("type", .str "bytes")]

/-- **C42 fails.** An invalid decimal stands for its bytes; a precision of zero is rejected instead
of ignored. -/
theorem C42_fails_zero_precision :
    SchemaDoc none (.obj exZeroPrecisionDoc) (.annotated .bytes
      [("logicalType", .str "decimal"), ("precision", .num (.int 0))]) ∧
    jsonToSchema none (.obj exZeroPrecisionDoc) = .error Defect.decimalPrecision.here := by
  refine ⟨.annotated (obj := exZeroPrecisionDoc) (p := .bytes) rfl (by intro h; cases h) ?_, rfl⟩
  intro lt h
  cases h with
  | @simple lt h1 h2 h3 =>
    cases lt with
    | decimal a b => exact h3 a b rfl
    | _ => cases h2
  | decimal h1 h2 h3 h4 h5 h6 h7 =>
    injection h3 with h3
    injection h3 with h3
    injection h3 with h3
    omega

/-- `{"type":"bytes","logicalType":"decimal","precision":1,"scale":2}`. -/
def exLargeScaleDoc : JMap := [("logicalType", .str "decimal"), ("precision", .num (.int 1)),
  ("scale", .num (.int 2)), ("type", .str "bytes")]

/-- **C42 fails.** A decimal whose scale exceeds its precision is invalid and stands for its bytes;
it is imported as a decimal. -/
theorem C42_fails_large_scale :
    SchemaDoc none (.obj exLargeScaleDoc) (.annotated .bytes [("logicalType", .str "decimal"),
      ("precision", .num (.int 1)), ("scale", .num (.int 2))]) ∧
    jsonToSchema none (.obj exLargeScaleDoc) = .ok (.logical (.decimal 1 2) []) := by
  refine ⟨.annotated (obj := exLargeScaleDoc) (p := .bytes) rfl (by intro h; cases h) ?_, rfl⟩
  intro lt h
  cases h with
  | @simple lt h1 h2 h3 =>
    cases lt with
    | decimal a b => exact h3 a b rfl
    | _ => cases h2
  | decimal h1 h2 h3 h4 h5 h6 h7 =>
    injection h3 with h3
    injection h3 with h3
    injection h3 with h3
    rcases h6 with ⟨h6, _⟩ | h6
    · cases h6
    · injection h6 with h6
      injection h6 with h6
      injection h6 with h6
      omega

/-- `{"type":"int","logicalType":"date","scale":7}`. -/
def exDateScaleDoc : JMap := [("logicalType", .str "date"), ("scale", .num (.int 7)),
  ("type", .str "int")]

/-- **C42 fails.** A property called `scale` or `precision` is lost on logical types that have
none. -/
theorem C42_fails_property_lost :
    SchemaDoc none (.obj exDateScaleDoc) (.logical .date [("scale", .num (.int 7))]) ∧
    jsonToSchema none (.obj exDateScaleDoc) = .ok (.logical .date []) :=
  ⟨.logical (obj := exDateScaleDoc) (p := .int) (lt := .date) rfl
    (.simple rfl rfl (by intro a b h; cases h)), rfl⟩

/-! ### Example -/

/-- `{"type":"record","name":"R","namespace":"n","fields":[{"name":"x","type":["null","F"]}]}`. -/
def exRecordDoc : JMap := [("fields", .arr [.obj [("name", .str "x"),
  ("type", .arr [.str "null", .str "F"])]]), ("name", .str "R"), ("namespace", .str "n"),
  ("type", .str "record")]

/-- It stands for the record `n.R` with a field of type `n.F`. -/
theorem exRecordDoc_means : SchemaDoc none (.obj exRecordDoc) (.record "R" (some "n") none
    [.mk "x" (.union [.prim .null, .ref "F" (some "n") [] none] false) none none none [] []]
    false [] []) :=
  .record (obj := exRecordDoc) (al := []) rfl (.given rfl (by decide) rfl) (.absent rfl) rfl
    (.cons (obj := [("name", .str "x"), ("type", .arr [.str "null", .str "F"])]) rfl rfl
      (.union (.cons (.prim (p := .null)) (.cons (.ref (by decide) (.plain (by decide))) .nil)))
      (.absent rfl) (.absent rfl) (.absent rfl) .nil) (.absent rfl)

theorem exRecordDoc_regular : Regular (.obj exRecordDoc) := by
  have noLogical : ∀ o : JMap, o.get? "logicalType" = none → ¬ NamesLogical o.get? := by
    rintro o h ⟨n, h1, -⟩; rw [h] at h1; cases h1
  have inner : Regular (.obj [("name", .str "x"), ("type", .arr [.str "null", .str "F"])]) := by
    refine .obj ⟨fun raw h hd => rfl, fun p _ hl => absurd hl (noLogical _ rfl), fun n h => ?_⟩ ?_
    · cases h
    · intro kv hkv
      simp only [List.mem_cons, List.not_mem_nil, or_false] at hkv
      rcases hkv with rfl | rfl
      · exact .str
      · refine .arr fun j hj => ?_
        simp only [List.mem_cons, List.not_mem_nil, or_false] at hj
        rcases hj with rfl | rfl <;> exact .str
  refine .obj ⟨fun raw h hd => ?_, fun p _ hl => absurd hl (noLogical _ rfl), fun n h => ?_⟩ ?_
  · exfalso
    injection h with h; injection h with h
    subst h; exact hd (by decide)
  · cases h
  · intro kv hkv
    simp only [exRecordDoc, List.mem_cons, List.not_mem_nil, or_false] at hkv
    rcases hkv with rfl | rfl | rfl | rfl
    · refine .arr fun j hj => ?_
      simp only [List.mem_cons, List.not_mem_nil, or_false] at hj
      subst hj; exact inner
    · exact .str
    · exact .str
    · exact .str

example [CharTables] (r : Registry) := C42_schema_partial exRecordDoc_means exRecordDoc_regular r

/-- `{"protocol":"P","namespace":"n","types":[…],"messages":{"m":{"request":[],"response":"R"}}}`. -/
def exProtocolDoc : JMap := [("messages", .obj [("m", .obj [("request", .arr []),
  ("response", .str "R")])]), ("namespace", .str "n"), ("protocol", .str "P"),
  ("types", .arr [.obj exRecordDoc])]

example : ProtocolDoc (.obj exProtocolDoc) [.record "R" (some "n") none
    [.mk "x" (.union [.prim .null, .ref "F" (some "n") [] none] false) none none none [] []]
    false [] []] [("m", ⟨none, [], [], .ref "R" (some "n") [] none, none, false⟩)] :=
  .mk (ns := some "n") (.present rfl)
    (.inr ⟨_, rfl, .cons (.record (obj := exRecordDoc) (al := []) rfl (.given rfl (by decide) rfl)
      (.absent rfl) rfl (.cons (obj := [("name", .str "x"), ("type", .arr [.str "null", .str "F"])])
        rfl rfl (.union (.cons (.prim (p := .null)) (.cons (.ref (by decide) (.plain (by decide)))
          .nil))) (.absent rfl) (.absent rfl) (.absent rfl) .nil) (.absent rfl)) .nil⟩)
    (.inr ⟨_, rfl, .cons (.mk (obj := [("request", .arr []), ("response", .str "R")]) (.absent rfl)
      rfl .nil rfl (.ref (by decide) (.plain (by decide))) (.absent rfl) (.absent rfl)) .nil⟩)

end Avdl.Props
