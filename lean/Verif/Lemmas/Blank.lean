import Verif.Lemmas.MuteReader
/-!
# Documentation and the mark of optional types

Schemas without positions and documentation, where `T?` and the union of `null` and `T` are not told
apart: after the reader nothing depends on these.
-/

namespace Avdl

mutual
/-- A schema without positions, documentation and marks of optional types. -/
def Schema.blank : Schema → Schema
  | .prim p => .prim p
  | .record n ns _ fs e al ps => .record n ns none (blankFields fs) e al ps
  | .enum n ns _ sy df al ps => .enum n ns none sy df al ps
  | .fixed n ns _ sz al ps => .fixed n ns none sz al ps
  | .array i ps => .array i.blank ps
  | .map i ps => .map i.blank ps
  | .union ts _ => .union (blankSchemas ts) false
  | .annotated k ps => .annotated k ps
  | .logical lt ps => .logical lt ps
  | .ref n ns ps _ => .ref n ns ps none
/-- Fields without positions, documentation and marks of optional types. -/
def blankFields : List Field → List Field
  | [] => []
  | .mk n s _ df o al ps :: fs => .mk n s.blank none df o al ps :: blankFields fs
/-- Schemas without positions, documentation and marks of optional types. -/
def blankSchemas : List Schema → List Schema
  | [] => []
  | s :: ss => s.blank :: blankSchemas ss
end

/-- A field without positions, documentation and marks of optional types. -/
def Field.blank : Field → Field
  | .mk n s _ df o al ps => .mk n s.blank none df o al ps

theorem blankFields_map (fs : List Field) : blankFields fs = fs.map Field.blank := by
  induction fs with
  | nil => rfl
  | cons f fs ih => cases f; rw [blankFields, ih]; rfl

theorem blankSchemas_map (ss : List Schema) : blankSchemas ss = ss.map Schema.blank := by
  induction ss with
  | nil => rfl
  | cons s ss ih => rw [blankSchemas, ih]; rfl

/-- A message without positions, documentation and marks of optional types. -/
def Message.blank (m : Message) : Message :=
  { m with doc := none, request := m.request.map Field.blank, response := m.response.blank,
           errors := m.errors.map (List.map Schema.blank) }

/-- A name and a message without positions, documentation and marks of optional types. -/
def blankMessage (nm : String × Message) : String × Message := (nm.1, nm.2.blank)

/-- A protocol without positions, documentation and marks of optional types. -/
def Protocol.blank (p : Protocol) : Protocol :=
  { p with doc := none, types := p.types.map Schema.blank, messages := p.messages.map blankMessage }

/-- A declaration without positions, documentation and marks of optional types. -/
def DeclItem.blank : DeclItem → DeclItem
  | .import_ i => .import_ i.mute
  | .type s _ _ => .type s.blank none []

/-- A file without positions, documentation and marks of optional types. -/
def IdlFile.blank : IdlFile → IdlFile
  | .protocol p => .protocol p.blank
  | .schema s => .schema s.blank
  | .named ss => .named (ss.map Schema.blank)

namespace Blank

@[simp] theorem fullName_blank (s : Schema) : s.blank.fullName? = s.fullName? := by
  cases s <;> rw [Schema.blank] <;> rfl

@[simp] theorem name_blank (s : Schema) : s.blank.name? = s.name? := by
  cases s <;> rw [Schema.blank] <;> rfl

@[simp] theorem unionKey_blank (s : Schema) : s.blank.unionKey = s.unionKey := by
  cases s <;> rw [Schema.blank] <;> rfl

@[simp] theorem isNull_blank (s : Schema) : s.blank.isNull = s.isNull := by
  cases s <;> rw [Schema.blank] <;> rfl

@[simp] theorem isUnion_blank (s : Schema) : s.blank.isUnion = s.isUnion := by
  cases s <;> rw [Schema.blank] <;> rfl

@[simp] theorem fieldName_blank (f : Field) : f.blank.name = f.name := by cases f; rfl
@[simp] theorem fieldSchema_blank (f : Field) : f.blank.schema = f.schema.blank := by cases f; rfl
@[simp] theorem fieldDefault_blank (f : Field) : f.blank.default = f.default := by cases f; rfl

/-! ## Defaults -/

mutual
theorem isValidDefault_blank (v : Json) : (s : Schema) → isValidDefault v s.blank = isValidDefault v s
  | .prim _ | .enum .. | .fixed .. | .annotated .. | .logical .. | .ref .. => rfl
  | .record _ _ _ fs _ _ _ => by
      cases v with
      | obj o => exact validFields_blank o fs
      | _ => rfl
  | .array i _ => by
      cases v with
      | arr l =>
        show l.all _ = l.all _
        congr 1
        funext e
        exact isValidDefault_blank e i
      | _ => rfl
  | .map i _ => by
      cases v with
      | obj o =>
        show List.all o _ = List.all o _
        congr 1
        funext e
        exact isValidDefault_blank e.2 i
      | _ => rfl
  | .union ts _ => validAny_blank v ts
theorem validFields_blank (o : JMap) : (fs : List Field) →
    validFields o (blankFields fs) = validFields o fs
  | [] => rfl
  | .mk n s _ df _ _ _ :: fs => by
      rw [blankFields, validFields, validFields, validFields_blank o fs]
      congr 1
      cases o.get? n with
      | none => rfl
      | some fv => exact isValidDefault_blank fv s
theorem validAny_blank (v : Json) : (ss : List Schema) →
    validAny v (blankSchemas ss) = validAny v ss
  | [] => rfl
  | s :: ss => by
      rw [blankSchemas, validAny, validAny, isValidDefault_blank v s, validAny_blank v ss]
end

theorem missingRequired_blank (o : JMap) (fs : List Field) :
    missingRequired o (blankFields fs) = missingRequired o fs := by
  induction fs with
  | nil => rfl
  | cons f fs ih =>
    cases f with
    | mk n s d df ord al ps =>
      unfold missingRequired at ih ⊢
      rw [blankFields, List.filter_cons, List.filter_cons]
      have e : ∀ s' d', ((Field.mk n s' d' df ord al ps).default.isNone &&
          (o.get? (Field.mk n s' d' df ord al ps).name).isNone) =
          (df.isNone && (o.get? n).isNone) := fun _ _ => rfl
      rw [e, e]
      split
      · rw [List.map_cons, List.map_cons, ih]; rfl
      · exact ih

mutual
theorem validateDefault_blank (v : Json) : (s : Schema) →
    validateDefault v s.blank = validateDefault v s
  | .prim _ | .enum .. | .fixed .. | .annotated .. | .logical .. | .ref .. => rfl
  | .record n ns d fs e al ps => by
      have h := isValidDefault_blank v (.record n ns d fs e al ps)
      rw [Schema.blank] at h ⊢
      unfold validateDefault
      rw [h]
      split
      · rfl
      · cases v <;> try rfl
        dsimp only
        rw [missingRequired_blank, firstInvalidField_blank _ fs]
  | .array i ps => by
      have h := isValidDefault_blank v (.array i ps)
      rw [Schema.blank] at h ⊢
      rw [validateDefault, validateDefault, h]
  | .map i ps => by
      have h := isValidDefault_blank v (.map i ps)
      rw [Schema.blank] at h ⊢
      rw [validateDefault, validateDefault, h]
  | .union ts b => by
      have h := isValidDefault_blank v (.union ts b)
      rw [Schema.blank] at h ⊢
      rw [validateDefault, validateDefault, h]
theorem firstInvalidField_blank (o : JMap) : (fs : List Field) →
    firstInvalidField o (blankFields fs) = firstInvalidField o fs
  | [] => rfl
  | .mk n s _ _ _ _ _ :: fs => by
      rw [blankFields, firstInvalidField, firstInvalidField, firstInvalidField_blank o fs]
      cases o.get? n with
      | none => rfl
      | some fv =>
        dsimp only
        rw [validateDefault_blank fv s]
end

theorem insertMessage_blank (ms : List (String × Message)) (n : String) (m : Message) :
    insertMessage (ms.map blankMessage) n m.blank = (insertMessage ms n m).map blankMessage := by
  unfold insertMessage
  rw [List.map_append, List.filter_map]
  rfl

/-! ## From the reader -/

mutual
theorem blank_mute : (s : Schema) → s.mute.blank = s.blank
  | .prim _ | .enum .. | .fixed .. | .annotated .. | .logical .. | .ref .. => rfl
  | .record n ns d fs e al ps => by
      rw [Schema.mute, Schema.blank, Schema.blank, blankFields_mute fs]
  | .array i ps => by rw [Schema.mute, Schema.blank, Schema.blank, blank_mute i]
  | .map i ps => by rw [Schema.mute, Schema.blank, Schema.blank, blank_mute i]
  | .union ts b => by rw [Schema.mute, Schema.blank, Schema.blank, blankSchemas_mute ts]
theorem blankFields_mute : (fs : List Field) → blankFields (muteFields fs) = blankFields fs
  | [] => rfl
  | .mk n s d df o al ps :: fs => by
      rw [muteFields, blankFields, blankFields, blank_mute s, blankFields_mute fs]
theorem blankSchemas_mute : (ss : List Schema) → blankSchemas (muteSchemas ss) = blankSchemas ss
  | [] => rfl
  | s :: ss => by
      rw [muteSchemas, blankSchemas, blankSchemas, blank_mute s, blankSchemas_mute ss]
end

theorem map_blank_mute (ss : List Schema) : (ss.map Schema.mute).map Schema.blank = ss.map Schema.blank := by
  rw [List.map_map]
  congr 1
  funext s
  exact blank_mute s

theorem field_blank_mute (f : Field) : f.mute.blank = f.blank := by
  cases f
  rw [Field.mute, Field.blank, Field.blank, blank_mute]

theorem message_blank_mute (m : Message) : m.mute.blank = m.blank := by
  unfold Message.mute Message.blank
  dsimp only
  rw [blank_mute, List.map_map]
  congr 1
  · congr 1
    funext f
    exact field_blank_mute f
  · cases m.errors with
    | none => rfl
    | some es => exact congrArg some (map_blank_mute es)

theorem file_blank_mute (f : IdlFile) : f.mute.blank = f.blank := by
  cases f with
  | protocol p =>
    show IdlFile.protocol _ = IdlFile.protocol _
    unfold Protocol.mute Protocol.blank
    dsimp only
    rw [map_blank_mute, List.map_map]
    congr 3
    funext x
    exact congrArg (Prod.mk x.1) (message_blank_mute x.2)
  | schema s => exact congrArg IdlFile.schema (blank_mute s)
  | named ss => exact congrArg IdlFile.named (map_blank_mute ss)

theorem decl_blank_mute (d : DeclItem) : d.mute.blank = d.blank := by
  cases d with
  | import_ i => rfl
  | type s sp sps =>
    rw [DeclItem.mute, DeclItem.blank, DeclItem.blank, blank_mute]

end Blank

end Avdl
