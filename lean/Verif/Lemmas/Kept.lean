import Verif.Lemmas.EndToEnd
import Verif.Lemmas.RoundTripProtocol
/-! # Annotations are maps of values the program can hold, numbers are in range -/

namespace Avdl
open Spec

/-- A set of annotations as the program builds it. -/
def Ann (ps : Props) : Prop := ps.Wf ∧ HeldEntries ps

theorem ann_nil : Ann [] := ⟨List.nodup_nil, heldEntries_nil⟩

/-- The conditions on a node. -/
def KeptNode : Schema → Prop
  | .prim _ | .union .. => True
  | .record _ _ _ _ _ _ ps | .enum _ _ _ _ _ _ ps => Ann ps
  | .fixed _ _ _ size _ ps => size < 2 ^ 32 ∧ Ann ps
  | .array _ ps | .map _ ps => Ann ps
  | .annotated _ ps => Ann ps ∧ ps.isEmpty = false
  | .logical lt ps => NumbersOk lt ∧ Ann ps
  | .ref _ _ ps _ => ps = []

/-- The conditions on a field. -/
def KeptField (f : Field) : Prop := Ann f.props ∧ ∀ v, f.default = some v → Held v

mutual
/-- All nodes and fields satisfy the conditions. -/
def Schema.Kept : Schema → Prop
  | .record n ns d fs er al ps => KeptNode (.record n ns d fs er al ps) ∧ Schema.KeptF fs
  | .array i ps => KeptNode (.array i ps) ∧ i.Kept
  | .map i ps => KeptNode (.map i ps) ∧ i.Kept
  | .union ts _ => Schema.KeptL ts
  | .prim p => KeptNode (.prim p)
  | .enum a b c d e f g => KeptNode (.enum a b c d e f g)
  | .fixed a b c d e f => KeptNode (.fixed a b c d e f)
  | .annotated k ps => KeptNode (.annotated k ps)
  | .logical lt ps => KeptNode (.logical lt ps)
  | .ref n ns ps sp => KeptNode (.ref n ns ps sp)
def Schema.KeptF : List Field → Prop
  | [] => True
  | .mk n s d df o al ps :: fs => KeptField (.mk n s d df o al ps) ∧ s.Kept ∧ Schema.KeptF fs
def Schema.KeptL : List Schema → Prop
  | [] => True
  | s :: ss => s.Kept ∧ Schema.KeptL ss
end

theorem Schema.keptF_iff (fs : List Field) :
    Schema.KeptF fs ↔ ∀ f ∈ fs, KeptField f ∧ f.schema.Kept := by
  induction fs with
  | nil => simp [Schema.KeptF]
  | cons f fs ih => cases f; simp [Schema.KeptF, ih, and_assoc, Field.schema]

theorem Schema.keptL_iff (ss : List Schema) : Schema.KeptL ss ↔ ∀ s ∈ ss, s.Kept := by
  induction ss with
  | nil => simp [Schema.KeptL]
  | cons s ss ih => simp [Schema.KeptL, ih]

/-! ## What the reader produces -/

theorem AnnotOk.ann {r : List String} {ps : Props} (h : AnnotOk r ps) : Ann ps := h.1

theorem refTo_kept {ident : String} {span : Option Span} {ns : Option String} :
    (refTo ident span ns).Kept := by
  obtain ⟨n, ns', h⟩ := refTo_eq ident span ns
  rw [h]; exact (rfl : ([] : Props) = [])

theorem TypeOut.kept {ns : Option String} {t : Schema} (h : TypeOut ns t) : t.Kept := by
  induction h with
  | prim p => trivial
  | annotated k ps hp hne => exact ⟨hp.ann, hne⟩
  | logical lt ps hn hp => exact ⟨hn, hp.ann⟩
  | ref n ns' span hr => exact (rfl : ([] : Props) = [])
  | array t ps _ hp ih => exact ⟨hp.ann, ih⟩
  | map t ps _ hp ih => exact ⟨hp.ann, ih⟩
  | union ts _ _ _ ih => exact (Schema.keptL_iff ts).mpr ih
  | optional t _ _ _ ih => exact ⟨trivial, ih, trivial⟩

theorem fixOptional_kept {t : Schema} (d : Option Json) (h : t.Kept) : (fixOptional t d).Kept := by
  unfold fixOptional
  split
  · have h' := h
    obtain ⟨h1, h2, _⟩ := h'
    split
    · exact h
    · exact h
    · exact ⟨h2, h1, trivial⟩
  · exact h

theorem FieldOut.kept {ns : Option String} {f : Field} (h : FieldOut ns f) :
    KeptField f ∧ f.schema.Kept := by
  obtain ⟨t, ht, he⟩ := h.type
  refine ⟨⟨h.props.ann, h.held⟩, ?_⟩
  rw [he]
  exact fixOptional_kept _ ht.kept

theorem NamedOut.kept {s : Schema} (h : NamedOut s) : s.Kept := by
  cases h with
  | record n ns doc fs er al ps _ hn hf _ hp =>
    exact ⟨hp.ann, (Schema.keptF_iff fs).mpr fun f hf' => (hf f hf').kept⟩
  | enum n ns doc sy df al ps _ hn _ _ hp => exact hp.ann
  | fixed n ns doc sz al ps _ hn hs hp => exact ⟨hs, hp.ann⟩

/-- The conditions on a message. -/
structure Message.Kept (m : Message) : Prop where
  request : ∀ f ∈ m.request, KeptField f ∧ f.schema.Kept
  response : m.response.Kept
  errors : ∀ es, m.errors = some es → ∀ s ∈ es, s.Kept
  props : Ann m.props

theorem MessageOut.kept {ns : Option String} {m : Message} (h : MessageOut ns m) : m.Kept := by
  refine ⟨fun f hf => (h.request f hf).kept, h.response.kept, fun es he s hs => ?_, h.props.ann⟩
  obtain ⟨ident, span, rfl⟩ := h.errors es he s hs
  exact refTo_kept

/-! ## What the JSON importer produces -/

theorem collectExtra_ann {obj : JMap} (h : HeldObj obj) (known : List String) :
    Ann (collectExtra obj known) := by
  refine ⟨?_, h.2.filter _⟩
  exact List.Nodup.sublist (List.Sublist.map _ List.filter_sublist) h.1.nodup

theorem stringToSchema_kept (s : String) (dflt : Option String) : (stringToSchema s dflt).Kept := by
  unfold stringToSchema
  cases Prim.ofStr? s with
  | some p => trivial
  | none =>
    have := refTo_kept (ident := s) (span := none) (ns := dflt)
    unfold refTo at this
    exact this

theorem parseEnum_kept {obj : JMap} (ho : HeldObj obj) {dflt : Option String} {s : Schema}
    (h : parseEnum obj dflt = .ok s) : s.Kept := by
  unfold parseEnum at h
  cases hn : namedTypeName obj dflt with
  | none => rw [hn] at h; cases h
  | some x =>
    rw [hn] at h
    simp only [Except.ok.injEq] at h
    subst h
    exact collectExtra_ann ho _

theorem toU32?_range {n m : Nat} (h : toU32? n = some m) : m < 2 ^ 32 := by
  unfold toU32? at h
  split at h
  · injection h with h; omega
  · cases h

theorem parseFixed_kept {obj : JMap} (ho : HeldObj obj) {dflt : Option String} {s : Schema}
    (h : parseFixed obj dflt = .ok s) : s.Kept := by
  unfold parseFixed at h
  cases hn : namedTypeName obj dflt with
  | none => rw [hn] at h; cases h
  | some x =>
    rw [hn] at h
    simp only at h
    cases hg : getU64 obj "size" with
    | none => rw [hg] at h; cases h
    | some sz =>
      rw [hg] at h
      simp only at h
      cases hu : toU32? sz with
      | none => rw [hu] at h; cases h
      | some sz' =>
        rw [hu] at h
        simp only [Except.ok.injEq] at h
        subst h
        exact ⟨toU32?_range hu, collectExtra_ann ho _⟩

theorem collectExtra_logical {obj : JMap} {l : String} (h : getStr obj "logicalType" = some l) :
    (collectExtra obj ["type"]).isEmpty = false := by
  have hm : ∃ v, JMap.get? obj "logicalType" = some v := by
    unfold getStr at h
    cases hg : JMap.get? obj "logicalType" with
    | none => rw [hg] at h; cases h
    | some v => exact ⟨v, rfl⟩
  obtain ⟨v, hv⟩ := hm
  have := JMap.mem_of_get? hv
  have : ("logicalType", v) ∈ collectExtra obj ["type"] := by
    unfold collectExtra
    exact List.mem_filter.mpr ⟨this, by simp⟩
  cases hc : collectExtra obj ["type"] with
  | nil => rw [hc] at this; cases this
  | cons => rfl

theorem parseAnnotatedPrimitive_kept {obj : JMap} (ho : HeldObj obj) {p : Prim} {s : Schema}
    (h : parseAnnotatedPrimitive obj p = .ok s) : s.Kept := by
  have h2 : (collectExtra obj ["type"]).isEmpty = false →
      Schema.Kept (.annotated p (collectExtra obj ["type"])) :=
    fun hne => ⟨collectExtra_ann ho _, hne⟩
  unfold parseAnnotatedPrimitive at h
  cases hl : getStr obj "logicalType" with
  | none =>
    rw [hl] at h
    simp only at h
    split at h <;> injection h with h <;> subst h
    · trivial
    · rename_i hne
      exact h2 (by simpa using hne)
  | some l =>
    rw [hl] at h
    simp only at h
    have hb : ∀ k n, (getU64 obj k).bind toU32? = some n → n < 2 ^ 32 := by
      intro k n hk
      obtain ⟨m, -, hm⟩ := Option.bind_eq_some_iff.mp hk
      exact toU32?_range hm
    have h1 : ∀ {lt}, parseLogicalType l ((getU64 obj "precision").bind toU32?)
        ((getU64 obj "scale").bind toU32?) = some lt →
        Schema.Kept (.logical lt (collectExtra obj logicalKeys)) :=
      fun hlt => ⟨parseLogicalType_numbers (hb _) (hb _) hlt, collectExtra_ann ho _⟩
    split at h
    · rename_i hlt
      split at h
      · cases h
      · injection h with h; subst h; exact h1 hlt
    · rename_i hlt
      injection h with h; subst h; exact h1 hlt
    · injection h with h; subst h; exact h2 (collectExtra_logical hl)

mutual
theorem jsonToSchema_kept (dflt : Option String) : (j : Json) → Held j → ∀ s,
    jsonToSchema dflt j = .ok s → s.Kept
  | .str t, _, s, h => by
      simp only [jsonToSchema, Except.ok.injEq] at h
      subst h; exact stringToSchema_kept _ _
  | .null, _, _, h | .bool _, _, _, h | .num _, _, _, h => by simp [jsonToSchema] at h
  | .arr l, hh, s, h => by
      simp only [jsonToSchema] at h
      cases hl : jsonToSchemaList dflt l with
      | error e => rw [hl] at h; cases h
      | ok ts =>
        rw [hl] at h
        simp only [Except.ok.injEq] at h
        subst h
        exact (Schema.keptL_iff ts).mpr (jsonToSchemaList_kept dflt l (heldList_iff.mp hh) ts hl)
  | .obj obj, hh, s, h => by
      have ho : HeldObj obj := held_obj.mp hh
      simp only [jsonToSchema] at h
      cases ht : getStr obj "type" with
      | none => rw [ht] at h; cases h
      | some t =>
        rw [ht] at h
        simp only at h
        split at h
        · cases hn : namedTypeName obj dflt with
          | none => rw [hn] at h; cases h
          | some x =>
            obtain ⟨n, ns⟩ := x
            rw [hn] at h
            simp only at h
            cases hf : fieldsEntry (ns.or dflt) obj with
            | error e => rw [hf] at h; cases h
            | ok fs =>
              rw [hf] at h
              simp only [Except.ok.injEq] at h
              subst h
              exact ⟨collectExtra_ann ho _,
                (Schema.keptF_iff fs).mpr (fieldsEntry_kept _ obj ho.2 fs hf)⟩
        split at h
        · exact parseEnum_kept ho h
        split at h
        · exact parseFixed_kept ho h
        split at h
        · cases he : schemaEntry dflt "items" obj with
          | none => rw [he] at h; cases h
          | some r =>
            rw [he] at h
            cases r with
            | error e => cases h
            | ok i =>
              simp only [Except.ok.injEq] at h
              subst h
              exact ⟨collectExtra_ann ho _, schemaEntry_kept dflt "items" obj ho.2 i he⟩
        split at h
        · cases he : schemaEntry dflt "values" obj with
          | none => rw [he] at h; cases h
          | some r =>
            rw [he] at h
            cases r with
            | error e => cases h
            | ok i =>
              simp only [Except.ok.injEq] at h
              subst h
              exact ⟨collectExtra_ann ho _, schemaEntry_kept dflt "values" obj ho.2 i he⟩
        cases hp : Prim.ofStr? t with
        | none => rw [hp] at h; cases h
        | some p => rw [hp] at h; exact parseAnnotatedPrimitive_kept ho h
theorem jsonToSchemaList_kept (dflt : Option String) : (js : List Json) → (∀ j ∈ js, Held j) →
    ∀ ss, jsonToSchemaList dflt js = .ok ss → ∀ s ∈ ss, s.Kept
  | [], _, ss, h => by
      simp only [jsonToSchemaList, Except.ok.injEq] at h
      subst h; simp
  | j :: js, hh, ss, h => by
      simp only [jsonToSchemaList] at h
      cases h1 : jsonToSchema dflt j with
      | error e => rw [h1] at h; cases h
      | ok s =>
        rw [h1] at h
        simp only at h
        cases h2 : jsonToSchemaList dflt js with
        | error e => rw [h2] at h; cases h
        | ok ss' =>
          rw [h2] at h
          simp only [Except.ok.injEq] at h
          subst h
          intro t ht
          rcases List.mem_cons.mp ht with rfl | ht
          · exact jsonToSchema_kept dflt j (hh j (by simp)) _ h1
          · exact jsonToSchemaList_kept dflt js (fun x hx => hh x (by simp [hx])) ss' h2 t ht
theorem schemaEntry_kept (dflt : Option String) (key : String) : (m : List (String × Json)) →
    HeldEntries m → ∀ s, schemaEntry dflt key m = some (.ok s) → s.Kept
  | [], _, s, h => by simp [schemaEntry] at h
  | (k, v) :: t, hh, s, h => by
      simp only [schemaEntry] at h
      split at h
      · simp only [Option.some.injEq] at h
        exact jsonToSchema_kept dflt v (hh (k, v) (by simp)) s h
      · exact schemaEntry_kept dflt key t (fun x hx => hh x (by simp [hx])) s h
theorem fieldsEntry_kept (dflt : Option String) : (m : List (String × Json)) → HeldEntries m →
    ∀ fs, fieldsEntry dflt m = .ok fs → ∀ f ∈ fs, KeptField f ∧ f.schema.Kept
  | [], _, fs, h => by
      simp only [fieldsEntry, Except.ok.injEq] at h
      subst h; simp
  | (k, v) :: t, hh, fs, h => by
      simp only [fieldsEntry] at h
      split at h
      · exact fieldsOfJson_kept dflt v (hh (k, v) (by simp)) fs h
      · exact fieldsEntry_kept dflt t (fun x hx => hh x (by simp [hx])) fs h
theorem fieldsOfJson_kept (dflt : Option String) : (j : Json) → Held j → ∀ fs,
    fieldsOfJson dflt j = .ok fs → ∀ f ∈ fs, KeptField f ∧ f.schema.Kept
  | .arr l, hh, fs, h => by
      simp only [fieldsOfJson] at h
      exact jsonToFieldList_kept dflt l (heldList_iff.mp hh) fs h
  | .null, _, fs, h | .bool _, _, fs, h | .num _, _, fs, h | .str _, _, fs, h
  | .obj _, _, fs, h => by
      simp only [fieldsOfJson, Except.ok.injEq] at h
      subst h; simp
theorem jsonToFieldList_kept (dflt : Option String) : (js : List Json) → (∀ j ∈ js, Held j) →
    ∀ fs, jsonToFieldList dflt js = .ok fs → ∀ f ∈ fs, KeptField f ∧ f.schema.Kept
  | [], _, fs, h => by
      simp only [jsonToFieldList, Except.ok.injEq] at h
      subst h; simp
  | j :: js, hh, fs, h => by
      simp only [jsonToFieldList] at h
      cases h1 : jsonToField dflt j with
      | error e => rw [h1] at h; cases h
      | ok f =>
        rw [h1] at h
        simp only at h
        cases h2 : jsonToFieldList dflt js with
        | error e => rw [h2] at h; cases h
        | ok fs' =>
          rw [h2] at h
          simp only [Except.ok.injEq] at h
          subst h
          intro g hg
          rcases List.mem_cons.mp hg with rfl | hg
          · exact jsonToField_kept dflt j (hh j (by simp)) _ h1
          · exact jsonToFieldList_kept dflt js (fun x hx => hh x (by simp [hx])) fs' h2 g hg
theorem jsonToField_kept (dflt : Option String) : (j : Json) → Held j → ∀ f,
    jsonToField dflt j = .ok f → KeptField f ∧ f.schema.Kept
  | .null, _, _, h | .bool _, _, _, h | .num _, _, _, h | .str _, _, _, h | .arr _, _, _, h => by
      simp [jsonToField] at h
  | .obj obj, hh, f, h => by
      have ho : HeldObj obj := held_obj.mp hh
      simp only [jsonToField] at h
      cases hn : getStr obj "name" with
      | none => rw [hn] at h; cases h
      | some n =>
        rw [hn] at h
        simp only at h
        cases he : schemaEntry dflt "type" obj with
        | none => rw [he] at h; cases h
        | some r =>
          rw [he] at h
          cases r with
          | error e => cases h
          | ok s =>
            simp only [Except.ok.injEq] at h
            subst h
            exact ⟨⟨collectExtra_ann ho fieldKeys, fun v hv => held_get ho.2 hv⟩,
              schemaEntry_kept dflt "type" obj ho.2 s he⟩
end

theorem jsonToMessage_kept {dflt : Option String} {j : Json} (hj : Held j) {m : Message}
    (h : jsonToMessage dflt j = .ok m) : m.Kept := by
  unfold jsonToMessage at h
  cases j with
  | obj obj =>
    have ho : HeldObj obj := held_obj.mp hj
    simp only at h
    have hq : ∀ r, (match JMap.get? obj "request" with
        | some r => fieldsOfJson dflt r
        | none => Except.ok []) = .ok r → ∀ f ∈ r, KeptField f ∧ f.schema.Kept := by
      intro r hr
      cases hg : JMap.get? obj "request" with
      | none => rw [hg] at hr; simp only [Except.ok.injEq] at hr; subst hr; simp
      | some v => rw [hg] at hr; exact fieldsOfJson_kept dflt v (held_get ho.2 hg) r hr
    have hs : ∀ r, (match schemaEntry dflt "response" obj with
        | some r => r
        | none => Except.ok (.prim .null)) = .ok r → r.Kept := by
      intro r hr
      cases hg : schemaEntry dflt "response" obj with
      | none => rw [hg] at hr; simp only [Except.ok.injEq] at hr; subst hr; trivial
      | some v =>
        rw [hg] at hr
        simp only at hr
        subst hr
        exact schemaEntry_kept dflt "response" obj ho.2 r hg
    have he : ∀ r, (match JMap.get? obj "errors" with
        | some (.arr es) => (jsonToSchemaList dflt es).map some
        | _ => Except.ok none) = .ok r → ∀ es, r = some es → ∀ s ∈ es, s.Kept := by
      intro r hr es hes
      subst hes
      split at hr
      · rename_i l hg
        cases hl : jsonToSchemaList dflt l with
        | error e => rw [hl] at hr; cases hr
        | ok ss =>
          rw [hl] at hr
          simp only [Except.map, Except.ok.injEq, Option.some.injEq] at hr
          subst hr
          exact jsonToSchemaList_kept dflt l (heldList_iff.mp (held_get ho.2 hg)) _ hl
      · simp at hr
    split at h
    · cases h
    · rename_i req hreq
      split at h
      · cases h
      · rename_i resp hresp
        split at h
        · cases h
        · rename_i errs herrs
          simp only [Except.ok.injEq] at h
          subst h
          exact ⟨hq _ hreq, hs _ hresp, he _ herrs, collectExtra_ann ho _⟩
  | _ => cases h

/-! ## Hoisting -/

mutual
theorem outline_kept : (s : Schema) → s.Kept → (outline s).Kept
  | .record .., _ | .enum .., _ | .fixed .., _ => (rfl : ([] : Props) = [])
  | .array i _, h => ⟨h.1, outline_kept i h.2⟩
  | .map i _, h => ⟨h.1, outline_kept i h.2⟩
  | .union ts _, h => outlineList_kept ts h
  | .prim _, h | .annotated .., h | .logical .., h | .ref .., h => h
theorem outlineList_kept : (ss : List Schema) → Schema.KeptL ss → Schema.KeptL (outlineList ss)
  | [], _ => trivial
  | s :: ss, h => ⟨outline_kept s h.1, outlineList_kept ss h.2⟩
end

theorem Spec.Defines.kept {s t : Schema} (h : Defines s t) (hs : s.Kept) : t.Kept := by
  induction h with
  | here => exact hs
  | field hf _ ih => exact ih ((Schema.keptF_iff _).mp hs.2 _ hf).2
  | items _ ih => exact ih hs.2
  | values _ ih => exact ih hs.2
  | branch hm _ ih => exact ih ((Schema.keptL_iff _).mp hs _ hm)

theorem outlineDef_kept {s : Schema} (h : s.Kept) : (outlineDef s).Kept := by
  cases s with
  | record n ns d fs e al ps =>
    refine ⟨h.1, (Schema.keptF_iff _).mpr ?_⟩
    intro f hf
    obtain ⟨g, hg, rfl⟩ := List.mem_map.mp hf
    obtain ⟨h1, h2⟩ := (Schema.keptF_iff _).mp h.2 g hg
    exact ⟨h1, outline_kept _ h2⟩
  | _ => exact h

theorem flattenSchema_kept {s : Schema} (h : s.Kept) : ∀ t ∈ (flattenSchema s).1, t.Kept := by
  obtain ⟨defs, h1, _, h3, h4, _⟩ := Props.C24_collects s
  intro t ht
  rw [h3] at ht
  obtain ⟨u, hu, rfl⟩ := List.mem_map.mp ht
  exact outlineDef_kept (((h1 u).mp hu).kept h)

theorem jsonTypes_kept (dflt : Option String) {js : List Json} (hj : ∀ j ∈ js, Held j) :
    ∀ t ∈ jsonTypes dflt js, t.Kept := by
  intro t ht
  obtain ⟨j, hm, ht⟩ := List.mem_flatMap.mp ht
  cases hs : jsonToSchema dflt j with
  | error e => rw [hs] at ht; cases ht
  | ok s => rw [hs] at ht; exact flattenSchema_kept (jsonToSchema_kept dflt j (hj j hm) s hs) t ht

theorem protocolJsonMessages_kept {j : Json} (hj : Held j) :
    ∀ nm ∈ protocolJsonMessages j, nm.2.Kept := by
  intro nm hnm
  unfold protocolJsonMessages at hnm
  split at hnm
  · rename_i ms hms
    obtain ⟨nj, hm, h⟩ := List.mem_filterMap.mp hnm
    have hh : HeldEntries ms := by
      cases j with
      | obj o => exact (held_obj.mp (held_get (held_obj.mp hj).2 hms)).2
      | _ => cases hms
    split at h
    · rename_i m hjm
      cases h
      exact jsonToMessage_kept (hh _ hm) hjm
    · cases h
  · cases hnm

/-! ## Compilations -/

section
variable [CharTables] [FloatTables] [CaseTables]

/-- What the file system gives as JSON documents are values the program can hold. -/
def HoldsJson (w : World) : Prop := ∀ t j, w.parseJson t = some j → Held j

omit [CharTables] [FloatTables] [CaseTables] in
theorem HoldsJson.read {w : World} (h : HoldsJson w) {p : Path} {j : Json}
    (hr : readJson w p = .ok j) : Held j := by
  unfold readJson at hr
  split at hr
  · cases hr
  · split at hr
    · cases hr
    · rename_i hp
      cases hr
      exact h _ _ hp

/-- The documents of a trace are values the program can hold. -/
def Event.Holds : Event → Prop
  | .schema _ j _ | .protocol _ j _ => Held j
  | .type .. | .idl .. => True

theorem Spec.Trace.holds {w : World} (hw : HoldsJson w) {dirs : List Path} {dir : Path}
    {seen : List Path} {items : List DeclItem} {es : List Event} {e : Ending}
    (h : Trace w dirs dir seen items es e) : ∀ ev ∈ es, Event.Holds ev := by
  induction h with
  | nil | cut | notFound | notCanonical | badJson | badIdl => simp
  | type _ ih =>
    intro ev hev
    rcases List.mem_cons.mp hev with rfl | hev
    · trivial
    · exact ih ev hev
  | again _ _ _ ih => exact ih
  | schema _ _ _ hr _ ih | protocol _ _ _ hr _ ih =>
    intro ev hev
    rcases List.mem_cons.mp hev with rfl | hev
    · exact hw.read hr
    · exact ih ev hev
  | idl _ _ _ _ _ _ ih1 ih2 =>
    intro ev hev
    rcases List.mem_cons.mp hev with rfl | hev
    · trivial
    · rcases List.mem_append.mp hev with hev | hev
      · exact ih1 ev hev
      · exact ih2 ev hev
  | idlEnds _ _ _ _ _ _ ih1 =>
    intro ev hev
    rcases List.mem_cons.mp hev with rfl | hev
    · trivial
    · exact ih1 ev hev

omit [CharTables] [FloatTables] [CaseTables] in
theorem held_member {j : Json} (hj : Held j) {k : String} {v : Json} (h : j.get? k = some v) :
    Held v := by
  cases j with
  | obj o => exact held_get (held_obj.mp hj).2 h
  | _ => cases h

omit [CharTables] [FloatTables] [CaseTables] in
theorem Event.Out.types_kept {ev : Event} (h : Event.Out ev) (hh : Event.Holds ev) :
    ∀ t ∈ ev.types, t.Kept := by
  cases ev with
  | type s sp spans =>
    intro t ht
    simp only [Event.types, List.mem_singleton] at ht
    subst ht
    exact NamedOut.kept h
  | schema p j span =>
    refine jsonTypes_kept _ fun x hx => ?_
    rw [List.mem_singleton.mp hx]
    exact hh
  | protocol p j span =>
    refine jsonTypes_kept _ fun x hx => ?_
    cases hb : (j.get? "types").bind Json.asArr with
    | none => rw [hb] at hx; simp at hx
    | some l =>
      rw [hb] at hx
      obtain ⟨v, hv, hl⟩ := Option.bind_eq_some_iff.mp hb
      have := held_member hh hv
      cases v with
      | arr l' =>
        simp only [Json.asArr, Option.some.injEq] at hl
        subst hl
        exact heldList_iff.mp this x hx
      | _ => cases hl
  | idl => simp [Event.types]

omit [CharTables] [FloatTables] [CaseTables] in
theorem FileOut.messages_kept {file : IdlFile} {decls : List DeclItem}
    (h : FileOut (file, decls)) : ∀ nm ∈ file.messages, nm.2.Kept := by
  cases file with
  | protocol p =>
    intro nm hnm
    obtain ⟨_, _, _, _, _, hm⟩ := h.protocol p rfl
    exact (hm nm hnm).kept
  | schema | named => simp [IdlFile.messages]

omit [CharTables] [FloatTables] [CaseTables] in
theorem Event.Out.messages_kept {ev : Event} (h : Event.Out ev) (hh : Event.Holds ev) :
    ∀ nm ∈ ev.messages, nm.2.Kept := by
  cases ev with
  | type | schema => simp [Event.messages]
  | protocol p j span => exact protocolJsonMessages_kept hh
  | idl p as file ws =>
    obtain ⟨decls, hf⟩ := h
    exact fun nm hnm => hf.messages_kept nm hnm

section
variable {b b' : Builder} {w : World} {fuel : Nat} {text name : String} {dir : Path}
  {path : Option Path} {out : CompileOutput}
  (h : b.compile w fuel text name dir path = (.ok out, b'))
include h

theorem compile_kept (hw : HoldsJson w) : ∀ t ∈ out.registry.schemas, t.Kept := by
  obtain ⟨file, decls, ws, es, seen, k, h1, h2, _, h4, _⟩ := Props.compile_ok h
  intro t ht
  obtain ⟨kt, hkt, rfl⟩ := List.mem_map.mp ht
  rw [h4] at hkt
  obtain ⟨ev, hev, hm⟩ := List.mem_flatMap.mp (mem_registerAll hkt)
  exact (h2.out (parseIdl_out h1).decls ev hev).types_kept (h2.holds hw ev hev) _ hm

theorem compile_protocol_kept (hw : HoldsJson w) {p : Protocol} (hp : out.file = .protocol p) :
    Ann p.props ∧ (∀ nm ∈ p.messages, nm.2.Kept) ∧ (p.messages.map Prod.fst).Nodup := by
  obtain ⟨file, decls, ws, es, seen, k, h1, h2, _, _, _, _, h7, _⟩ := Props.compile_ok h
  rw [hp] at h7
  cases file with
  | schema s => exact h7.elim
  | named ss => exact h7.elim
  | protocol q =>
    simp only at h7
    obtain ⟨_, _, _, h8, _⟩ := (parseIdl_out h1).protocol q rfl
    obtain ⟨a1, a2⟩ := extendMessages_spec (es.flatMap Event.messages) [] (by simp)
    obtain ⟨b1, b2⟩ := extendMessages_spec q.messages _ a1
    refine ⟨by rw [h7]; exact h8.ann, fun nm hnm => ?_, by rw [h7]; exact b1⟩
    rw [h7] at hnm
    simp only at hnm
    rcases (b2 nm.1 nm.2).mp hnm with hl | ⟨_, hl⟩
    · exact (parseIdl_out h1).messages_kept (nm.1, nm.2) (lastEntry_mem hl)
    · rcases (a2 nm.1 nm.2).mp hl with hl | ⟨_, hl⟩
      · obtain ⟨ev, hev, hm⟩ := List.mem_flatMap.mp (lastEntry_mem hl)
        exact (h2.out (parseIdl_out h1).decls ev hev).messages_kept (h2.holds hw ev hev) _ hm
      · cases hl

theorem compile_schema_kept {s : Schema} (hs : out.file = .schema s) : s.Kept := by
  obtain ⟨file, decls, ws, es, seen, k, h1, _, _, _, _, _, h7, _⟩ := Props.compile_ok h
  rw [hs] at h7
  cases file with
  | protocol q => exact h7.elim
  | named ss => exact h7.elim
  | schema s' =>
    simp only at h7
    subst h7
    obtain ⟨ns, ht⟩ := (parseIdl_out h1).schema s rfl
    exact ht.kept

end
end

/-! ## Documents -/

theorem held_arr {l : List Json} (h : ∀ j ∈ l, Held j) : Held (.arr l) := heldList_iff.mpr h

theorem preamble_held {typeStr name : String} {ns doc : Option String} {known : Known}
    {encl : Option String} {obj : JMap} {k : Known}
    (h : namedTypePreamble typeStr name ns doc known encl = .ok (obj, k)) : HeldObj obj := by
  unfold namedTypePreamble at h
  simp only at h
  split at h
  · cases h
  · simp only [Except.ok.injEq, Prod.mk.injEq] at h
    rw [← h.1]
    have h0 : HeldObj (JMap.insert "name" (.str name) (JMap.insert "type" (.str typeStr) [])) :=
      (heldObj_nil.insert _ (held_str _)).insert _ (held_str _)
    cases doc with
    | none =>
      cases ns with
      | none => exact h0
      | some n =>
        simp only
        split
        · exact h0.insert _ (held_str _)
        · exact h0
    | some d =>
      refine HeldObj.insert ?_ _ (held_str _)
      cases ns with
      | none => exact h0
      | some n =>
        simp only
        split
        · exact h0.insert _ (held_str _)
        · exact h0

theorem preamble_bare_held {typeStr name : String} {ns doc : Option String} {known : Known}
    {encl : Option String} {j : Json}
    (h : namedTypePreamble typeStr name ns doc known encl = .error j) : Held j := by
  unfold namedTypePreamble at h
  simp only at h
  split at h
  · cases h; trivial
  · cases h

theorem finish_held {obj : JMap} (h : HeldObj obj) {ps : Props} (hp : Ann ps) (al : List String)
    (ns : Option String) : Held (.obj (finishNamedType obj ps al ns)) := by
  unfold finishNamedType
  simp only
  split
  · exact (h.insertAll hp.2).held
  · refine ((h.insertAll hp.2).insert _ ?_).held
    have := held_strs (al.map fun a => aliasRefName a ns)
    rwa [List.map_map] at this

theorem mapAccum_all {α β σ : Type} {f : α → σ → Option (β × σ)} {P : β → Prop} :
    ∀ (l : List α), (∀ a ∈ l, ∀ s b s', f a s = some (b, s') → P b) → ∀ s bs s',
    mapAccum f l s = some (bs, s') → ∀ b ∈ bs, P b
  | [], _, s, bs, s', h => by simp only [mapAccum, Option.some.injEq, Prod.mk.injEq] at h; simp [← h.1]
  | a :: l, H, s, bs, s', h => by
      simp only [mapAccum] at h
      cases h1 : f a s with
      | none => rw [h1] at h; cases h
      | some r =>
        obtain ⟨b, s1⟩ := r
        rw [h1] at h
        simp only at h
        cases h2 : mapAccum f l s1 with
        | none => rw [h2] at h; cases h
        | some r =>
          obtain ⟨bs1, s2⟩ := r
          rw [h2] at h
          simp only [Option.some.injEq, Prod.mk.injEq] at h
          rw [← h.1]
          intro x hx
          rcases List.mem_cons.mp hx with rfl | hx
          · exact H a (by simp) s _ s1 h1
          · exact mapAccum_all l (fun a ha => H a (by simp [ha])) s1 bs1 s2 h2 x hx

theorem fieldObj_held {f : Field} (hf : KeptField f) {j : Json} (hj : Held j) :
    Held (.obj (fieldObj f j)) := by
  obtain ⟨name, s, doc, df, ord, al, ps⟩ := f
  have hd : ∀ v, df = some v → Held v := hf.2
  refine (HeldObj.insertAll ?_ (And.right (hf.1 : Ann ps))).held
  have h0 : HeldObj (JMap.insert "type" j (JMap.insert "name" (.str name) [])) :=
    (heldObj_nil.insert _ (held_str _)).insert _ hj
  have h3 : ∀ {o : JMap}, HeldObj o → HeldObj (orderEntry ord o) := by
    intro o h2
    unfold orderEntry
    split
    · exact h2.insert _ (held_str _)
    · exact h2.insert _ (held_str _)
    · exact h2
    · exact h2
  have h4 : ∀ {o : JMap}, HeldObj o → HeldObj (if al = [] then orderEntry ord o
      else JMap.insert "aliases" (.arr (al.map .str)) (orderEntry ord o)) := by
    intro o h2
    split
    · exact h3 h2
    · exact (h3 h2).insert _ (held_strs _)
  apply h4
  cases df with
  | none =>
    cases doc with
    | none => exact h0
    | some d => exact h0.insert _ (held_str d)
  | some v =>
    cases doc with
    | none => exact h0.insert _ (hd v rfl)
    | some d => exact (h0.insert _ (held_str d)).insert _ (hd v rfl)

theorem fieldToJson_held {ser : Schema → Known → Option (Json × Known)} {f : Field}
    (hf : KeptField f) (hs : ∀ k j k', ser f.schema k = some (j, k') → Held j) {k k' : Known}
    {j : Json} (h : fieldToJson ser f k = some (j, k')) : Held j := by
  unfold fieldToJson at h
  cases h1 : ser f.schema k with
  | none => rw [h1] at h; cases h
  | some r =>
    obtain ⟨x, k1⟩ := r
    rw [h1] at h
    simp only [Option.some.injEq, Prod.mk.injEq] at h
    rw [← h.1]
    exact fieldObj_held hf (hs _ _ _ h1)

theorem logicalObj_held {lt : LogicalType} (hn : NumbersOk lt) {ps : Props} (hp : Ann ps) :
    Held (.obj (logicalObj lt ps)) := by
  unfold logicalObj
  simp only
  refine (HeldObj.insertAll ?_ hp.2).held
  have h0 : ∀ a b : String, HeldObj (JMap.insert "logicalType" (.str a)
      (JMap.insert "type" (.str b) [])) :=
    fun _ _ => (heldObj_nil.insert _ (held_str _)).insert _ (held_str _)
  cases lt with
  | decimal p s =>
    obtain ⟨h1, h2⟩ := hn p s rfl
    exact ((h0 _ _).insert _ (held_nat h1)).insert _ (held_nat h2)
  | _ => exact h0 _ _

theorem enumObj_held {sy : List String} {df : Option String} {obj : JMap} (h : HeldObj obj) :
    HeldObj (enumObj sy df obj) := by
  unfold enumObj
  simp only
  split
  · exact (h.insert _ (held_strs _)).insert _ (held_str _)
  · exact h.insert _ (held_strs _)

theorem schemaToJson_held {lk : Lookup} (hl : ∀ n s, lk.get? n = some s → s.Kept) : ∀ (n : Nat)
    (s : Schema) (encl : Option String) (k : Known) (j : Json) (k' : Known), s.Kept →
    schemaToJson lk n s encl k = some (j, k') → Held j := by
  intro n
  induction n with
  | zero => intro s encl k j k' _ h; cases h
  | succ n ih =>
    intro s encl k j k' hs h
    cases s with
    | prim p =>
      simp only [schemaToJson, Option.some.injEq, Prod.mk.injEq] at h
      rw [← h.1]; trivial
    | annotated p ps =>
      simp only [schemaToJson, Option.some.injEq, Prod.mk.injEq] at h
      rw [← h.1]
      exact ((heldObj_nil.insert _ (held_str _)).insertAll (And.right (hs.1 : Ann ps))).held
    | logical lt ps =>
      simp only [schemaToJson, Option.some.injEq, Prod.mk.injEq] at h
      rw [← h.1]
      exact logicalObj_held (And.left (hs : NumbersOk lt ∧ Ann ps))
        (And.right (hs : NumbersOk lt ∧ Ann ps))
    | ref nm ns ps sp =>
      simp only [schemaToJson] at h
      split at h
      · simp only [Option.some.injEq, Prod.mk.injEq] at h
        rw [← h.1]; trivial
      · split at h
        · rename_i r hr
          exact ih r encl k j k' (hl _ _ hr) h
        · simp only [Option.some.injEq, Prod.mk.injEq] at h
          rw [← h.1]; trivial
    | union ts b =>
      simp only [schemaToJson] at h
      split at h
      · cases h
      · rename_i js k1 hm
        simp only [Option.some.injEq, Prod.mk.injEq] at h
        rw [← h.1]
        refine heldList_iff.mpr (mapAccum_all ts (fun t ht s b s' hb => ?_) _ _ _ hm)
        exact ih t encl s b s' ((Schema.keptL_iff ts).mp hs t ht) hb
    | array i ps =>
      simp only [schemaToJson] at h
      split at h
      · cases h
      · rename_i ij k1 hi
        simp only [Option.some.injEq, Prod.mk.injEq] at h
        rw [← h.1]
        exact (((heldObj_nil.insert _ (held_str _)).insert _ (ih i encl k ij k1 hs.2 hi)).insertAll
          (And.right (hs.1 : Ann ps))).held
    | map i ps =>
      simp only [schemaToJson] at h
      split at h
      · cases h
      · rename_i ij k1 hi
        simp only [Option.some.injEq, Prod.mk.injEq] at h
        rw [← h.1]
        exact (((heldObj_nil.insert _ (held_str _)).insert _ (ih i encl k ij k1 hs.2 hi)).insertAll
          (And.right (hs.1 : Ann ps))).held
    | enum nm ns doc sy df al ps =>
      simp only [schemaToJson] at h
      split at h
      · rename_i bare hb
        simp only [Option.some.injEq, Prod.mk.injEq] at h
        rw [← h.1]; exact preamble_bare_held hb
      · rename_i obj k1 hp
        simp only [Option.some.injEq, Prod.mk.injEq] at h
        rw [← h.1]
        exact finish_held (enumObj_held (preamble_held hp)) hs _ _
    | fixed nm ns doc sz al ps =>
      simp only [schemaToJson] at h
      split at h
      · rename_i bare hb
        simp only [Option.some.injEq, Prod.mk.injEq] at h
        rw [← h.1]; exact preamble_bare_held hb
      · rename_i obj k1 hp
        simp only [Option.some.injEq, Prod.mk.injEq] at h
        rw [← h.1]
        have hs' : sz < 2 ^ 32 ∧ Ann ps := hs
        exact finish_held ((preamble_held hp).insert _ (held_nat hs'.1)) hs'.2 _ _
    | record nm ns doc fs er al ps =>
      simp only [schemaToJson] at h
      split at h
      · rename_i bare hb
        simp only [Option.some.injEq, Prod.mk.injEq] at h
        rw [← h.1]; exact preamble_bare_held hb
      · rename_i obj k1 hp
        split at h
        · cases h
        · rename_i fj k2 hm
          simp only [Option.some.injEq, Prod.mk.injEq] at h
          rw [← h.1]
          refine finish_held ((preamble_held hp).insert _ (held_arr
            (mapAccum_all fs (fun f hf s b s' hb => ?_) _ _ _ hm))) hs.1 _ _
          obtain ⟨hf1, hf2⟩ := (Schema.keptF_iff fs).mp hs.2 f hf
          exact fieldToJson_held hf1 (fun k j k' hk => ih _ _ _ _ _ hf2 hk) hb

theorem messageObj_held {m : Message} (hm : Ann m.props) {req : List Json}
    (hq : ∀ j ∈ req, Held j) {resp : Json} (hr : Held resp) {errs : Option (List Json)}
    (he : ∀ es, errs = some es → ∀ j ∈ es, Held j) : Held (.obj (messageObj m req resp errs)) := by
  unfold messageObj
  simp only
  have h0 : HeldObj (match m.doc with
      | some d => JMap.insert "doc" (.str d) []
      | none => []) := by
    split
    · exact heldObj_nil.insert _ (held_str _)
    · exact heldObj_nil
  have h1 := ((h0.insertAll hm.2).insert "request" (held_arr hq)).insert "response" hr
  refine HeldObj.held ?_
  cases errs with
  | none =>
    split
    · exact h1.insert _ (v := .bool true) trivial
    · exact h1
  | some es =>
    have h2 := h1.insert "errors" (held_arr (he es rfl))
    split
    · exact h2.insert _ (v := .bool true) trivial
    · exact h2

theorem messageToJson_held {lk : Lookup} (hl : ∀ n s, lk.get? n = some s → s.Kept) {n : Nat}
    {encl : Option String} {m : Message} (hm : m.Kept) {k k' : Known} {j : Json}
    (h : messageToJson lk n encl m k = some (j, k')) : Held j := by
  unfold messageToJson at h
  split at h
  · cases h
  · rename_i req k1 hq
    split at h
    · cases h
    · rename_i resp k2 hr
      have h1 : ∀ j ∈ req, Held j := mapAccum_all _ (fun f hf s b s' hb =>
        fieldToJson_held (hm.request f hf).1 (fun k j k' hk =>
          schemaToJson_held hl n _ _ _ _ _ (hm.request f hf).2 hk) hb) _ _ _ hq
      have h2 := schemaToJson_held hl n _ _ _ _ _ hm.response hr
      split at h
      · simp only [Option.some.injEq, Prod.mk.injEq] at h
        rw [← h.1]
        exact messageObj_held hm.props h1 h2 (by simp)
      · rename_i es hes
        split at h
        · cases h
        · rename_i ej k3 hej
          simp only [Option.some.injEq, Prod.mk.injEq] at h
          rw [← h.1]
          refine messageObj_held hm.props h1 h2 ?_
          rintro _ ⟨⟩
          exact mapAccum_all es (fun s hs k b k' hb =>
            schemaToJson_held hl n s _ _ _ _ (hm.errors es hes s hs) hb) _ _ _ hej

theorem buildLookup_kept {d : Option String} {ts : List Schema} (hf : ∀ t ∈ ts, t.flatDef = true)
    (ht : ∀ t ∈ ts, t.Kept) : ∀ n s, (buildLookup ts d).get? n = some s → s.Kept := by
  intro n s h
  rw [buildLookup_flat d ts hf] at h
  have := Lookup.mem_of_get? h
  simp only [List.mem_reverse, List.mem_map, Prod.mk.injEq] at this
  obtain ⟨t, h1, _, rfl⟩ := this
  exact ht t h1

theorem protocolToJson_held {n : Nat} {p : Protocol} (hf : ∀ t ∈ p.types, t.flatDef = true)
    (ht : ∀ t ∈ p.types, t.Kept)
    (hp : Ann p.props) (hm : ∀ nm ∈ p.messages, nm.2.Kept) {j : Json}
    (h : protocolToJson n p = some j) : Held j := by
  have hl := buildLookup_kept (d := p.ns) hf ht
  unfold protocolToJson at h
  simp only at h
  split at h
  · cases h
  · rename_i types k1 h1
    split at h
    · cases h
    · rename_i msgs k2 h2
      injection h with h
      subst h
      have a1 : ∀ j ∈ types, Held j := mapAccum_all _ (fun t htm k b k' hb =>
        schemaToJson_held hl n t _ _ _ _ (ht t htm) hb) _ _ _ h1
      have a2 : HeldEntries msgs := mapAccum_all (P := fun x : String × Json => Held x.2) _
        (fun nm hnm k b k' hb => by
          obtain ⟨⟨j, k1⟩, hj, he⟩ := Option.map_eq_some_iff.mp hb
          cases he
          exact messageToJson_held hl (hm nm hnm) hj) _ _ _ h2
      unfold protocolObj
      simp only
      have b0 : HeldObj (JMap.insert "protocol" (.str p.name) []) :=
        heldObj_nil.insert _ (held_str _)
      have b3 : ∀ {o : JMap}, HeldObj o → Held (.obj (JMap.insert "messages"
          (.obj (JMap.insertAll [] msgs)) (JMap.insert "types"
            (.arr (types.filter fun v => !v.isStr)) (o.insertAll p.props)))) := fun ho =>
        (((ho.insertAll hp.2).insert _
          (held_arr fun x hx => a1 x (List.mem_filter.mp hx).1)).insert _
          (heldObj_nil.insertAll a2).held).held
      apply b3
      have b1 : HeldObj (match p.ns with
          | some ns => if ns = "" then JMap.insert "protocol" (.str p.name) []
              else JMap.insert "namespace" (.str ns) (JMap.insert "protocol" (.str p.name) [])
          | none => JMap.insert "protocol" (.str p.name) []) := by
        split
        · split
          · exact b0
          · exact b0.insert _ (held_str _)
        · exact b0
      cases p.doc with
      | none => exact b1
      | some d => exact b1.insert _ (held_str _)

end Avdl
