import Verif.Spec.Coherent
import Verif.Lemmas.ProtocolEvents
import Verif.Lemmas.Hoist
import Verif.Lemmas.ReaderDecls
import Verif.Lemmas.CompileFacts
import Verif.Props.Compile
import Verif.Props.Import
/-! # From a successful compilation to coherent type tables -/

namespace Avdl
open Spec

/-- The conditions of `OutNode` that do not concern namespaces. -/
def PlainNode : Schema → Prop
  | .record n _ _ _ _ _ ps =>
      DotFree n ∧ ps.Avoids ["type", "name", "namespace", "doc", "fields", "aliases"]
  | .enum n _ _ _ _ _ ps =>
      DotFree n ∧ ps.Avoids ["type", "name", "namespace", "doc", "symbols", "default", "aliases"]
  | .fixed n _ _ _ _ ps =>
      DotFree n ∧ ps.Avoids ["type", "name", "namespace", "doc", "size", "aliases"]
  | .array _ ps => ps.Avoids ["type", "items"]
  | .map _ ps => ps.Avoids ["type", "values"]
  | .union _ _ => True
  | .prim _ => True
  | .annotated _ ps => ps.Avoids ["type"]
  | .logical _ ps => ps.Avoids ["type"]
  | .ref n _ _ _ => DotFree n

mutual
/-- All nodes and fields satisfy the conditions. -/
def Schema.Plain : Schema → Prop
  | .record n ns d fs er al ps => PlainNode (.record n ns d fs er al ps) ∧ Schema.PlainF fs
  | .array i ps => PlainNode (.array i ps) ∧ i.Plain
  | .map i ps => PlainNode (.map i ps) ∧ i.Plain
  | .union ts _ => Schema.PlainL ts
  | .prim p => PlainNode (.prim p)
  | .enum a b c d e f g => PlainNode (.enum a b c d e f g)
  | .fixed a b c d e f => PlainNode (.fixed a b c d e f)
  | .annotated k ps => PlainNode (.annotated k ps)
  | .logical lt ps => PlainNode (.logical lt ps)
  | .ref n ns ps sp => PlainNode (.ref n ns ps sp)
def Schema.PlainF : List Field → Prop
  | [] => True
  | .mk n s d df o al ps :: fs => OutField (.mk n s d df o al ps) ∧ s.Plain ∧ Schema.PlainF fs
def Schema.PlainL : List Schema → Prop
  | [] => True
  | s :: ss => s.Plain ∧ Schema.PlainL ss
end

theorem Schema.plainF_iff (fs : List Field) :
    Schema.PlainF fs ↔ ∀ f ∈ fs, OutField f ∧ f.schema.Plain := by
  induction fs with
  | nil => simp [Schema.PlainF]
  | cons f fs ih => cases f; simp [Schema.PlainF, ih, Field.schema, and_assoc]

theorem Schema.plainL_iff (ss : List Schema) : Schema.PlainL ss ↔ ∀ s ∈ ss, s.Plain := by
  induction ss with
  | nil => simp [Schema.PlainL]
  | cons f fs ih => simp [Schema.PlainL, ih]

/-! ## From plain to faithful output -/

theorem dotFree_makeFullName {n : String} {ns : Option String} (hn : DotFree n) :
    DotFree (makeFullName n ns) ↔ nsStr ns = "" := by
  rw [makeFullName_nsStr]
  by_cases h : nsStr ns = ""
  · rw [h, makeFullName_empty]; simp [hn]
  · unfold DotFree
    rw [makeFullName_toList h]
    simp [h]

theorem makeFullName_null {n : String} {ns : Option String} (h : nsStr ns = "") :
    makeFullName n ns = n := by
  rw [makeFullName_nsStr, h, makeFullName_empty]

/-- What has to be known about the references in a schema occurring in namespace `e`. -/
def RefsOk (known : String → Prop) (e : String) (s : Schema) : Prop :=
  ∀ x sp, RefersTo s x sp → known x ∧ x ∉ primitiveTypeNames ∧ (DotFree x → e = "")

mutual
theorem outOk_of_plain {known : String → Prop} {e : String} : (s : Schema) → s.noDefs = true →
    s.Plain → RefsOk known e s → s.OutOk known e
  | .record .., h, _, _ | .enum .., h, _, _ | .fixed .., h, _, _ => by
      simp [Schema.noDefs] at h
  | .prim _, _, _, _ => trivial
  | .annotated .., _, h, _ => h
  | .logical .., _, h, _ => h
  | .ref n ns ps sp, _, h, hr => by
      obtain ⟨h1, h2, h3⟩ := hr _ _ .ref
      refine ⟨⟨h, fun hn => ?_, fun hn => h3 ((dotFree_makeFullName h).mpr hn)⟩, h1⟩
      rwa [makeFullName_null hn] at h2
  | .array i _, hn, h, hr => by
      simp only [Schema.noDefs] at hn
      exact ⟨h.1, outOk_of_plain i hn h.2 fun x sp hx => hr x sp (.items hx)⟩
  | .map i _, hn, h, hr => by
      simp only [Schema.noDefs] at hn
      exact ⟨h.1, outOk_of_plain i hn h.2 fun x sp hx => hr x sp (.values hx)⟩
  | .union ts _, hn, h, hr => by
      simp only [Schema.noDefs] at hn
      exact ⟨trivial, outOkL_of_plain ts hn h fun t ht x sp hx => hr x sp (.branch ht hx)⟩
theorem outOkL_of_plain {known : String → Prop} {e : String} : (ss : List Schema) →
    Schema.noDefsL ss = true → Schema.PlainL ss → (∀ s ∈ ss, RefsOk known e s) →
    Schema.EverywhereL (OutNode known) OutField e ss
  | [], _, _, _ => trivial
  | s :: ss, hn, h, hr => by
      simp only [Schema.noDefsL, Bool.and_eq_true] at hn
      exact ⟨outOk_of_plain s hn.1 h.1 (hr s (by simp)),
        outOkL_of_plain ss hn.2 h.2 fun t ht => hr t (by simp [ht])⟩
end

/-- A flat definition in its own namespace. -/
theorem def_outOk {known : String → Prop} {t : Schema} {full : String} (hfl : t.flatDef = true)
    (hp : t.Plain) (hfull : t.fullName? = some full) (hprim : full ∉ primitiveTypeNames)
    (hr : RefsOk known (nsStr t.nsOf) t) : t.OutOk known (nsStr t.nsOf) := by
  have hself : ∀ n (ns : Option String), full = makeFullName n ns → DotFree n →
      RefOk (nsStr ns) n ns := by
    intro n ns h hn
    refine ⟨hn, fun hns => ?_, id⟩
    rw [h, makeFullName_null hns] at hprim; exact hprim
  cases t with
  | record n ns d fs er al ps =>
    cases hfull
    simp only [Schema.flatDef, Schema.noDefsF_iff] at hfl
    obtain ⟨⟨h1, h2⟩, h3⟩ := hp
    refine ⟨⟨hself n ns rfl h1, h2⟩, ?_⟩
    rw [Schema.everywhereF_iff]
    rw [Schema.plainF_iff] at h3
    intro f hf
    have hi : innerNs ns (nsStr (Schema.nsOf (.record n ns d fs er al ps))) = nsStr ns := by
      cases ns <;> rfl
    rw [hi]
    exact ⟨(h3 f hf).1, outOk_of_plain _ (hfl f hf) (h3 f hf).2
      fun x sp hx => hr x sp (.field hf hx)⟩
  | enum n ns => cases hfull; exact ⟨hself n ns rfl hp.1, hp.2⟩
  | fixed n ns => cases hfull; exact ⟨hself n ns rfl hp.1, hp.2⟩
  | _ => simp [Schema.flatDef] at hfl

/-- A coherent table of flat plain definitions whose references are all in the table. -/
theorem tableOk_of {d : Option String} {types : List Schema} (hfl : ∀ t ∈ types, t.flatDef = true)
    (hp : ∀ t ∈ types, t.Plain) (hd : (fullNames types).Nodup)
    (hr : ∀ t ∈ types, ∀ x sp, RefersTo t x sp → x ∈ fullNames types) (hc : Coherent types)
    (hns : nsStr d ≠ "" → ∀ x ∈ fullNames types, ¬ DotFree x) : TableOk d types where
  flat := hfl
  distinct := hd
  out t ht := by
    have hnamed : ∃ full, t.fullName? = some full ∧ (DotFree full → nsStr t.nsOf = "") := by
      have h1 := hfl t ht
      have h2 := hp t ht
      cases t with
      | record n ns => exact ⟨_, rfl, (dotFree_makeFullName h2.1.1).mp⟩
      | enum n ns => exact ⟨_, rfl, (dotFree_makeFullName h2.1).mp⟩
      | fixed n ns => exact ⟨_, rfl, (dotFree_makeFullName h2.1).mp⟩
      | _ => simp [Schema.flatDef] at h1
    obtain ⟨full, hf, he⟩ := hnamed
    refine def_outOk (hfl t ht) (hp t ht) hf
      (hc.notPrimitive _ (mem_fullNames.mpr ⟨t, ht, hf⟩)) fun x sp hx => ?_
    have hk := hr t ht x sp hx
    exact ⟨hk, hc.notPrimitive x hk, fun hdf => he (hc.separate t ht full hf x sp hx hdf)⟩
  ns t ht hn := by
    apply Decidable.byContradiction
    intro hne
    have h1 := hfl t ht
    have h2 := hp t ht
    cases t with
    | record n ns =>
      cases (show ns = none from hn)
      exact hns hne n (mem_fullNames.mpr ⟨_, ht, rfl⟩) h2.1.1
    | enum n ns =>
      cases (show ns = none from hn)
      exact hns hne n (mem_fullNames.mpr ⟨_, ht, rfl⟩) h2.1
    | fixed n ns =>
      cases (show ns = none from hn)
      exact hns hne n (mem_fullNames.mpr ⟨_, ht, rfl⟩) h2.1
    | _ => simp [Schema.flatDef] at h1

/-! ## What the reader produces is plain -/

theorem Props.Avoids.sub {ps : Props} {a b : List String} (h : ps.Avoids a) (hs : ∀ k ∈ b, k ∈ a) :
    ps.Avoids b := fun kv hkv hk => h kv hkv (hs _ hk)

theorem AnnotOk.avoids {r : List String} {ps : Props} (h : AnnotOk r ps) (b : List String)
    (hs : ∀ k ∈ b, k ∈ r := by decide) : ps.Avoids b := h.2.sub hs

theorem refTo_plain {ident : String} {span : Option Span} {ns : Option String} :
    (refTo ident span ns).Plain ∧ (refTo ident span ns).noDefs = true := by
  unfold refTo
  have h := splitFullName_fst_dotfree ident
  cases hs : splitFullName ident with
  | mk n o =>
    rw [hs] at h
    cases o with
    | some x => exact ⟨h, rfl⟩
    | none =>
      refine ⟨?_, rfl⟩
      have : n = ident := by
        unfold splitFullName at hs
        cases hr : rsplitDot ident.toList with
        | none => rw [hr] at hs; injection hs with hs _; exact hs.symm
        | some ab => rw [hr] at hs; injection hs with _ hs; cases hs
      rw [this] at h
      exact h

theorem TypeOut.plain {ns : Option String} {t : Schema} (h : TypeOut ns t) :
    t.Plain ∧ t.noDefs = true := by
  induction h with
  | prim p => exact ⟨trivial, rfl⟩
  | annotated k ps hp => exact ⟨hp.avoids _, rfl⟩
  | logical lt ps _ hp => exact ⟨hp.avoids _, rfl⟩
  | ref n ns' span hr =>
    obtain ⟨ident, hi⟩ := hr
    rw [← hi]; exact refTo_plain
  | array t ps _ hp ih => exact ⟨⟨hp.avoids _, ih.1⟩, ih.2⟩
  | map t ps _ hp ih => exact ⟨⟨hp.avoids _, ih.1⟩, ih.2⟩
  | union ts _ _ _ ih =>
    refine ⟨(Schema.plainL_iff ts).mpr fun t ht => (ih t ht).1, ?_⟩
    simp only [Schema.noDefs, Schema.noDefsL_iff]
    exact fun t ht => (ih t ht).2
  | optional t _ _ _ ih => exact ⟨⟨trivial, ih.1, trivial⟩, by simp [Schema.noDefs, Schema.noDefsL, ih.2]⟩

theorem fixOptional_plain {t : Schema} (d : Option Json) (h : t.Plain ∧ t.noDefs = true) :
    (fixOptional t d).Plain ∧ (fixOptional t d).noDefs = true := by
  unfold fixOptional
  split
  · rename_i a b
    have h' := h
    obtain ⟨⟨h1, h2, _⟩, h3⟩ := h'
    simp only [Schema.noDefs, Schema.noDefsL, Bool.and_eq_true] at h3
    split
    · exact h
    · exact h
    · exact ⟨⟨h2, h1, trivial⟩, by simp [Schema.noDefs, Schema.noDefsL, h3.1, h3.2.1]⟩
  · exact h

theorem FieldOut.plain {ns : Option String} {f : Field} (h : FieldOut ns f) :
    OutField f ∧ f.schema.Plain ∧ f.schema.noDefs = true := by
  obtain ⟨t, ht, he⟩ := h.type
  refine ⟨h.props.avoids _, ?_⟩
  rw [he]
  exact fixOptional_plain _ ht.plain

theorem NamedOut.plain {s : Schema} (h : NamedOut s) : s.Plain ∧ s.flatDef = true := by
  cases h with
  | record n ns doc fs er al ps _ hn hf _ hp =>
    refine ⟨⟨⟨hn, hp.avoids _⟩, (Schema.plainF_iff fs).mpr fun f hf' => ?_⟩, ?_⟩
    · obtain ⟨h1, h2, _⟩ := (hf f hf').plain; exact ⟨h1, h2⟩
    · simp only [Schema.flatDef, Schema.noDefsF_iff]
      exact fun f hf' => (hf f hf').plain.2.2
  | enum n ns doc sy df al ps _ hn _ _ hp => exact ⟨⟨hn, hp.avoids _⟩, rfl⟩
  | fixed n ns doc sz al ps _ hn _ hp => exact ⟨⟨hn, hp.avoids _⟩, rfl⟩

/-- A message without misplaced properties. -/
structure Message.Plain (m : Message) : Prop where
  request : ∀ f ∈ m.request, OutField f ∧ f.schema.Plain
  response : m.response.Plain
  errors : ∀ es, m.errors = some es → ∀ s ∈ es, s.Plain
  props : m.props.Avoids ["doc", "request", "response", "errors", "one-way"]

theorem MessageOut.plain {ns : Option String} {m : Message} (h : MessageOut ns m) :
    m.Plain ∧ m.noDefs := by
  refine ⟨⟨fun f hf => ?_, h.response.plain.1, fun es he s hs => ?_, h.props.avoids _⟩,
    fun f hf => (h.request f hf).plain.2.2, h.response.plain.2, fun es he s hs => ?_⟩
  · obtain ⟨h1, h2, _⟩ := (h.request f hf).plain; exact ⟨h1, h2⟩
  · obtain ⟨ident, span, rfl⟩ := h.errors es he s hs; exact refTo_plain.1
  · obtain ⟨ident, span, rfl⟩ := h.errors es he s hs; exact refTo_plain.2

/-! ## What the JSON importer produces is plain -/

theorem collectExtra_sub (obj : JMap) (known b : List String)
    (hs : ∀ k ∈ b, k ∈ known := by decide) : Props.Avoids (collectExtra obj known) b := by
  intro kv hkv hk
  simp only [collectExtra, List.mem_filter, Bool.not_eq_true', List.contains_eq_mem,
    decide_eq_false_iff_not] at hkv
  exact hkv.2 (hs _ hk)

theorem stringToSchema_plain (s : String) (dflt : Option String) :
    (stringToSchema s dflt).Plain := by
  unfold stringToSchema
  cases Prim.ofStr? s with
  | some p => trivial
  | none =>
    have := (refTo_plain (ident := s) (span := none) (ns := dflt)).1
    unfold refTo at this
    exact this

theorem namedTypeName_dotfree {obj : JMap} {dflt ns : Option String} {n : String}
    (h : namedTypeName obj dflt = some (n, ns)) : DotFree n := by
  unfold namedTypeName at h
  cases hg : getStr obj "name" with
  | none => rw [hg] at h; cases h
  | some raw =>
    rw [hg] at h
    simp only [Option.some.injEq, Prod.mk.injEq] at h
    rw [← h.1]; exact splitFullName_fst_dotfree raw

theorem parseEnum_plain {obj : JMap} {dflt : Option String} {s : Schema}
    (h : parseEnum obj dflt = .ok s) : s.Plain := by
  unfold parseEnum at h
  cases hn : namedTypeName obj dflt with
  | none => rw [hn] at h; cases h
  | some x =>
    obtain ⟨n, ns⟩ := x
    rw [hn] at h
    simp only [Except.ok.injEq] at h
    subst h
    exact ⟨namedTypeName_dotfree hn, collectExtra_sub _ _ _⟩

theorem parseFixed_plain {obj : JMap} {dflt : Option String} {s : Schema}
    (h : parseFixed obj dflt = .ok s) : s.Plain := by
  unfold parseFixed at h
  cases hn : namedTypeName obj dflt with
  | none => rw [hn] at h; cases h
  | some x =>
    obtain ⟨n, ns⟩ := x
    rw [hn] at h
    simp only at h
    cases hg : getU64 obj "size" with
    | none => rw [hg] at h; cases h
    | some sz =>
      rw [hg] at h
      simp only at h
      cases hu : toU32? sz with
      | none => rw [hu] at h; cases h
      | some sz' =>
        rw [hu] at h
        simp only [Except.ok.injEq] at h
        subst h
        exact ⟨namedTypeName_dotfree hn, collectExtra_sub _ _ _⟩

theorem parseAnnotatedPrimitive_plain {obj : JMap} {p : Prim} {s : Schema}
    (h : parseAnnotatedPrimitive obj p = .ok s) : s.Plain := by
  have h1 : ∀ lt, Schema.Plain (.logical lt (collectExtra obj logicalKeys)) :=
    fun lt => collectExtra_sub obj logicalKeys ["type"]
  have h2 : Schema.Plain (.annotated p (collectExtra obj ["type"])) :=
    collectExtra_sub obj ["type"] ["type"]
  unfold parseAnnotatedPrimitive at h
  cases hl : getStr obj "logicalType" with
  | none =>
    rw [hl] at h
    simp only at h
    split at h <;> injection h with h <;> subst h
    · trivial
    · exact h2
  | some l =>
    rw [hl] at h
    simp only at h
    split at h
    · split at h
      · cases h
      · injection h with h; subst h; exact h1 _
    · injection h with h; subst h; exact h1 _
    · injection h with h; subst h; exact h2

mutual
theorem jsonToSchema_plain (dflt : Option String) : (j : Json) → ∀ s, jsonToSchema dflt j = .ok s →
    s.Plain
  | .str t, s, h => by
      simp only [jsonToSchema, Except.ok.injEq] at h
      subst h; exact stringToSchema_plain _ _
  | .null, _, h | .bool _, _, h | .num _, _, h => by simp [jsonToSchema] at h
  | .arr l, s, h => by
      simp only [jsonToSchema] at h
      cases hl : jsonToSchemaList dflt l with
      | error e => rw [hl] at h; cases h
      | ok ts =>
        rw [hl] at h
        simp only [Except.ok.injEq] at h
        subst h
        exact (Schema.plainL_iff ts).mpr (jsonToSchemaList_plain dflt l ts hl)
  | .obj obj, s, h => by
      simp only [jsonToSchema] at h
      cases ht : getStr obj "type" with
      | none => rw [ht] at h; cases h
      | some t =>
        rw [ht] at h
        simp only at h
        split at h
        · cases hn : namedTypeName obj dflt with
          | none => rw [hn] at h; cases h
          | some x =>
            obtain ⟨n, ns⟩ := x
            rw [hn] at h
            simp only at h
            cases hf : fieldsEntry (ns.or dflt) obj with
            | error e => rw [hf] at h; cases h
            | ok fs =>
              rw [hf] at h
              simp only [Except.ok.injEq] at h
              subst h
              exact ⟨⟨namedTypeName_dotfree hn, collectExtra_sub _ _ _⟩,
                (Schema.plainF_iff fs).mpr (fieldsEntry_plain _ obj fs hf)⟩
        split at h
        · exact parseEnum_plain h
        split at h
        · exact parseFixed_plain h
        split at h
        · cases he : schemaEntry dflt "items" obj with
          | none => rw [he] at h; cases h
          | some r =>
            rw [he] at h
            cases r with
            | error e => cases h
            | ok i =>
              simp only [Except.ok.injEq] at h
              subst h
              exact ⟨collectExtra_sub _ _ _, schemaEntry_plain dflt "items" obj i he⟩
        split at h
        · cases he : schemaEntry dflt "values" obj with
          | none => rw [he] at h; cases h
          | some r =>
            rw [he] at h
            cases r with
            | error e => cases h
            | ok i =>
              simp only [Except.ok.injEq] at h
              subst h
              exact ⟨collectExtra_sub _ _ _, schemaEntry_plain dflt "values" obj i he⟩
        cases hp : Prim.ofStr? t with
        | none => rw [hp] at h; cases h
        | some p => rw [hp] at h; exact parseAnnotatedPrimitive_plain h
theorem jsonToSchemaList_plain (dflt : Option String) : (js : List Json) → ∀ ss,
    jsonToSchemaList dflt js = .ok ss → ∀ s ∈ ss, s.Plain
  | [], ss, h => by
      simp only [jsonToSchemaList, Except.ok.injEq] at h
      subst h; simp
  | j :: js, ss, h => by
      simp only [jsonToSchemaList] at h
      cases h1 : jsonToSchema dflt j with
      | error e => rw [h1] at h; cases h
      | ok s =>
        rw [h1] at h
        simp only at h
        cases h2 : jsonToSchemaList dflt js with
        | error e => rw [h2] at h; cases h
        | ok ss' =>
          rw [h2] at h
          simp only [Except.ok.injEq] at h
          subst h
          intro t ht
          rcases List.mem_cons.mp ht with rfl | ht
          · exact jsonToSchema_plain dflt j _ h1
          · exact jsonToSchemaList_plain dflt js ss' h2 t ht
theorem schemaEntry_plain (dflt : Option String) (key : String) : (m : List (String × Json)) → ∀ s,
    schemaEntry dflt key m = some (.ok s) → s.Plain
  | [], s, h => by simp [schemaEntry] at h
  | (k, v) :: t, s, h => by
      simp only [schemaEntry] at h
      split at h
      · simp only [Option.some.injEq] at h
        exact jsonToSchema_plain dflt v s h
      · exact schemaEntry_plain dflt key t s h
theorem fieldsEntry_plain (dflt : Option String) : (m : List (String × Json)) → ∀ fs,
    fieldsEntry dflt m = .ok fs → ∀ f ∈ fs, OutField f ∧ f.schema.Plain
  | [], fs, h => by
      simp only [fieldsEntry, Except.ok.injEq] at h
      subst h; simp
  | (k, v) :: t, fs, h => by
      simp only [fieldsEntry] at h
      split at h
      · exact fieldsOfJson_plain dflt v fs h
      · exact fieldsEntry_plain dflt t fs h
theorem fieldsOfJson_plain (dflt : Option String) : (j : Json) → ∀ fs,
    fieldsOfJson dflt j = .ok fs → ∀ f ∈ fs, OutField f ∧ f.schema.Plain
  | .arr l, fs, h => by
      simp only [fieldsOfJson] at h
      exact jsonToFieldList_plain dflt l fs h
  | .null, fs, h | .bool _, fs, h | .num _, fs, h | .str _, fs, h | .obj _, fs, h => by
      simp only [fieldsOfJson, Except.ok.injEq] at h
      subst h; simp
theorem jsonToFieldList_plain (dflt : Option String) : (js : List Json) → ∀ fs,
    jsonToFieldList dflt js = .ok fs → ∀ f ∈ fs, OutField f ∧ f.schema.Plain
  | [], fs, h => by
      simp only [jsonToFieldList, Except.ok.injEq] at h
      subst h; simp
  | j :: js, fs, h => by
      simp only [jsonToFieldList] at h
      cases h1 : jsonToField dflt j with
      | error e => rw [h1] at h; cases h
      | ok f =>
        rw [h1] at h
        simp only at h
        cases h2 : jsonToFieldList dflt js with
        | error e => rw [h2] at h; cases h
        | ok fs' =>
          rw [h2] at h
          simp only [Except.ok.injEq] at h
          subst h
          intro g hg
          rcases List.mem_cons.mp hg with rfl | hg
          · exact jsonToField_plain dflt j _ h1
          · exact jsonToFieldList_plain dflt js fs' h2 g hg
theorem jsonToField_plain (dflt : Option String) : (j : Json) → ∀ f, jsonToField dflt j = .ok f →
    OutField f ∧ f.schema.Plain
  | .null, _, h | .bool _, _, h | .num _, _, h | .str _, _, h | .arr _, _, h => by
      simp [jsonToField] at h
  | .obj obj, f, h => by
      simp only [jsonToField] at h
      cases hn : getStr obj "name" with
      | none => rw [hn] at h; cases h
      | some n =>
        rw [hn] at h
        simp only at h
        cases he : schemaEntry dflt "type" obj with
        | none => rw [he] at h; cases h
        | some r =>
          rw [he] at h
          cases r with
          | error e => cases h
          | ok s =>
            simp only [Except.ok.injEq] at h
            subst h
            exact ⟨collectExtra_sub obj fieldKeys _, schemaEntry_plain dflt "type" obj s he⟩
end

theorem jsonToMessage_plain {dflt : Option String} {j : Json} {m : Message}
    (h : jsonToMessage dflt j = .ok m) : m.Plain := by
  unfold jsonToMessage at h
  cases j with
  | obj obj =>
    simp only at h
    have hq : ∀ r, (match JMap.get? obj "request" with
        | some r => fieldsOfJson dflt r
        | none => Except.ok []) = .ok r → ∀ f ∈ r, OutField f ∧ f.schema.Plain := by
      intro r hr
      cases hg : JMap.get? obj "request" with
      | none => rw [hg] at hr; simp only [Except.ok.injEq] at hr; subst hr; simp
      | some v => rw [hg] at hr; exact fieldsOfJson_plain dflt v r hr
    have hs : ∀ r, (match schemaEntry dflt "response" obj with
        | some r => r
        | none => Except.ok (.prim .null)) = .ok r → r.Plain := by
      intro r hr
      cases hg : schemaEntry dflt "response" obj with
      | none => rw [hg] at hr; simp only [Except.ok.injEq] at hr; subst hr; trivial
      | some v =>
        rw [hg] at hr
        simp only at hr
        subst hr
        exact schemaEntry_plain dflt "response" obj r hg
    have he : ∀ r, (match JMap.get? obj "errors" with
        | some (.arr es) => (jsonToSchemaList dflt es).map some
        | _ => Except.ok none) = .ok r → ∀ es, r = some es → ∀ s ∈ es, s.Plain := by
      intro r hr es hes
      subst hes
      split at hr
      · rename_i l _
        cases hl : jsonToSchemaList dflt l with
        | error e => rw [hl] at hr; cases hr
        | ok ss =>
          rw [hl] at hr
          simp only [Except.map, Except.ok.injEq, Option.some.injEq] at hr
          subst hr
          exact jsonToSchemaList_plain dflt l _ hl
      · simp at hr
    split at h
    · cases h
    · rename_i req hreq
      split at h
      · cases h
      · rename_i resp hresp
        split at h
        · cases h
        · rename_i errs herrs
          simp only [Except.ok.injEq] at h
          subst h
          exact ⟨hq _ hreq, hs _ hresp, he _ herrs, collectExtra_sub _ _ _⟩
  | _ => cases h

/-! ## Hoisting keeps plainness -/

mutual
theorem outline_plain : (s : Schema) → s.Plain → (outline s).Plain
  | .record .., h => h.1.1
  | .enum .., h | .fixed .., h => h.1
  | .array i _, h => ⟨h.1, outline_plain i h.2⟩
  | .map i _, h => ⟨h.1, outline_plain i h.2⟩
  | .union ts _, h => outlineList_plain ts h
  | .prim _, h | .annotated .., h | .logical .., h | .ref .., h => h
theorem outlineList_plain : (ss : List Schema) → Schema.PlainL ss → Schema.PlainL (outlineList ss)
  | [], _ => trivial
  | s :: ss, h => ⟨outline_plain s h.1, outlineList_plain ss h.2⟩
end

theorem Spec.Defines.plain {s t : Schema} (h : Defines s t) (hs : s.Plain) : t.Plain := by
  induction h with
  | here => exact hs
  | field hf _ ih => exact ih ((Schema.plainF_iff _).mp hs.2 _ hf).2
  | items _ ih => exact ih hs.2
  | values _ ih => exact ih hs.2
  | branch hm _ ih => exact ih ((Schema.plainL_iff _).mp hs _ hm)

theorem outlineDef_plain {s : Schema} (h : s.Plain) : (outlineDef s).Plain := by
  cases s with
  | record n ns d fs e al ps =>
    refine ⟨h.1, (Schema.plainF_iff _).mpr ?_⟩
    intro f hf
    obtain ⟨g, hg, rfl⟩ := List.mem_map.mp hf
    obtain ⟨h1, h2⟩ := (Schema.plainF_iff _).mp h.2 g hg
    exact ⟨h1, outline_plain _ h2⟩
  | _ => exact h

theorem flattenSchema_plain {s : Schema} (h : s.Plain) :
    ∀ t ∈ (flattenSchema s).1, t.Plain ∧ t.flatDef = true := by
  obtain ⟨defs, h1, _, h3, h4, _⟩ := Props.C24_collects s
  intro t ht
  refine ⟨?_, h4 t ht⟩
  rw [h3] at ht
  obtain ⟨u, hu, rfl⟩ := List.mem_map.mp ht
  exact outlineDef_plain (((h1 u).mp hu).plain h)

theorem jsonTypes_plain (dflt : Option String) (js : List Json) :
    ∀ t ∈ jsonTypes dflt js, t.Plain ∧ t.flatDef = true := by
  intro t ht
  obtain ⟨j, _, ht⟩ := List.mem_flatMap.mp ht
  cases hj : jsonToSchema dflt j with
  | error e => rw [hj] at ht; cases ht
  | ok s => rw [hj] at ht; exact flattenSchema_plain (jsonToSchema_plain dflt j s hj) t ht

theorem protocolJsonMessages_plain (j : Json) : ∀ nm ∈ protocolJsonMessages j, nm.2.Plain := by
  intro nm hnm
  unfold protocolJsonMessages at hnm
  split at hnm
  · obtain ⟨nj, _, h⟩ := List.mem_filterMap.mp hnm
    split at h
    · rename_i m hm
      cases h
      exact jsonToMessage_plain hm
    · cases h
  · cases hnm

/-! ## Traces -/

section
variable [CharTables] [FloatTables] [CaseTables]

theorem parseIdl_out {w : World} {text name : String} {file : IdlFile} {decls : List DeclItem}
    {ws : List Warning} (h : parseIdl w text name = .ok (file, decls, ws)) :
    FileOut (file, decls) := by
  unfold parseIdl at h
  cases hp : w.parse name text with
  | none => rw [hp] at h; cases h
  | some src =>
    rw [hp] at h
    simp only at h
    cases hr : readFile src.tokens src.ast with
    | error e => rw [hr] at h; cases h
    | ok r =>
      rw [hr] at h
      simp only [Except.ok.injEq, Prod.mk.injEq] at h
      obtain ⟨rfl, rfl, _⟩ := h
      exact readFile_out hr

theorem readIdl_out {w : World} {p : Path} {file : IdlFile} {decls : List DeclItem}
    {ws : List Warning} (h : readIdl w p = .ok (file, decls, ws)) : FileOut (file, decls) := by
  unfold readIdl at h
  cases hr : w.read p with
  | none => rw [hr] at h; cases h
  | some text => rw [hr] at h; exact parseIdl_out h

/-- What the events of a trace bring. -/
def Event.Out : Event → Prop
  | .type s .. => NamedOut s
  | .idl _ _ file _ => ∃ decls, FileOut (file, decls)
  | .schema .. | .protocol .. => True

theorem Spec.Trace.out {w : World} {dirs : List Path} {dir : Path} {seen : List Path}
    {items : List DeclItem} {es : List Event} {e : Ending}
    (h : Trace w dirs dir seen items es e) (hi : ∀ s ∈ DeclItem.types items, NamedOut s) :
    ∀ ev ∈ es, Event.Out ev := by
  induction h with
  | nil | cut | notFound | notCanonical | badJson | badIdl => simp
  | type _ ih =>
    simp only [DeclItem.types, List.filterMap_cons, List.mem_cons, forall_eq_or_imp] at hi
    intro ev hev
    rcases List.mem_cons.mp hev with rfl | hev
    · exact hi.1
    · exact ih hi.2 ev hev
  | again _ _ _ ih => exact ih hi
  | schema _ _ _ _ _ ih | protocol _ _ _ _ _ ih =>
    intro ev hev
    rcases List.mem_cons.mp hev with rfl | hev
    · trivial
    · exact ih hi ev hev
  | idl _ _ _ hr _ _ ih1 ih2 =>
    intro ev hev
    rcases List.mem_cons.mp hev with rfl | hev
    · exact ⟨_, readIdl_out hr⟩
    · rcases List.mem_append.mp hev with hev | hev
      · exact ih1 (readIdl_out hr).decls ev hev
      · exact ih2 hi ev hev
  | idlEnds _ _ _ hr _ _ ih1 =>
    intro ev hev
    rcases List.mem_cons.mp hev with rfl | hev
    · exact ⟨_, readIdl_out hr⟩
    · exact ih1 (readIdl_out hr).decls ev hev

omit [CharTables] [FloatTables] [CaseTables] in
theorem Event.Out.types {ev : Event} (h : Event.Out ev) :
    ∀ t ∈ ev.types, t.Plain ∧ t.flatDef = true := by
  cases ev with
  | type s sp spans => intro t ht; simp only [Event.types, List.mem_singleton] at ht; subst ht; exact NamedOut.plain h
  | schema p j span => exact jsonTypes_plain _ _
  | protocol p j span => exact jsonTypes_plain _ _
  | idl => simp [Event.types]

omit [CharTables] [FloatTables] [CaseTables] in
theorem FileOut.messages {file : IdlFile} {decls : List DeclItem} (h : FileOut (file, decls)) :
    ∀ nm ∈ file.messages, nm.2.Plain ∧ nm.2.noDefs := by
  cases file with
  | protocol p =>
    intro nm hnm
    obtain ⟨_, _, _, _, _, hm⟩ := h.protocol p rfl
    exact (hm nm hnm).plain
  | schema | named => simp [IdlFile.messages]

omit [CharTables] [FloatTables] [CaseTables] in
theorem Event.Out.messages {ev : Event} (h : Event.Out ev) : ∀ nm ∈ ev.messages, nm.2.Plain := by
  cases ev with
  | type | schema => simp [Event.messages]
  | protocol p j => exact protocolJsonMessages_plain j
  | idl p as file ws =>
    obtain ⟨decls, hf⟩ := h
    exact fun nm hnm => (hf.messages nm hnm).1

omit [FloatTables] [CaseTables] in
theorem mem_registerAll {l : List Schema} {kt : String × Schema}
    (h : kt ∈ Props.registerAll l) : kt.2 ∈ l := by
  have key : ∀ (l : List Schema) (r : Registry), kt ∈ l.foldl Props.attempt r → kt ∈ r ∨ kt.2 ∈ l := by
    intro l
    induction l with
    | nil => exact fun r h => .inl h
    | cons s l ih =>
      intro r h
      rcases ih _ h with h | h
      · rcases Props.C08_attempt r s with ⟨full, _, _, _, he⟩ | ⟨_, _, he⟩
        · rw [he] at h
          rcases List.mem_append.mp h with h | h
          · exact .inl h
          · simp only [List.mem_singleton] at h; subst h; exact .inr (by simp)
        · rw [he] at h; exact .inl h
      · exact .inr (by simp [h])
  rcases key l [] h with h | h
  · cases h
  · exact h

omit [CharTables] [FloatTables] [CaseTables] in
theorem lastEntry_mem {l : List (String × Message)} {n : String} {m : Message}
    (h : lastEntry l n = some m) : (n, m) ∈ l := by
  obtain ⟨a, b, rfl, _⟩ := (Props.C22_lastEntry_spec l n m).mp h
  simp

/-! ## Successful compilations -/

section
variable {b b' : Builder} {w : World} {fuel : Nat} {text name : String} {dir : Path}
  {path : Option Path} {out : CompileOutput}
  (h : b.compile w fuel text name dir path = (.ok out, b'))
include h

theorem fullNames_registry : fullNames out.registry.schemas = out.registry.names := by
  obtain ⟨_, _, _, es, _, _, _, _, _, h4, _⟩ := Props.compile_ok h
  have hok := Props.C08_registry_ok (es.flatMap Event.types)
  rw [← h4] at hok
  generalize out.registry = r at hok
  induction r with
  | nil => rfl
  | cons kt r ih =>
    have h1 := (hok kt (by simp)).2
    simp only [fullNames, Registry.schemas, Registry.names, List.map_cons, List.filterMap_cons, h1,
      List.cons.injEq, true_and]
    exact ih fun x hx => hok x (by simp [hx])

theorem compile_types : ∀ t ∈ out.registry.schemas, t.Plain ∧ t.flatDef = true := by
  obtain ⟨file, decls, ws, es, seen, k, h1, h2, _, h4, _⟩ := Props.compile_ok h
  intro t ht
  obtain ⟨kt, hkt, rfl⟩ := List.mem_map.mp ht
  rw [h4] at hkt
  obtain ⟨ev, hev, hm⟩ := List.mem_flatMap.mp (mem_registerAll hkt)
  exact (h2.out (parseIdl_out h1).decls ev hev).types _ hm

theorem compile_refs : (∀ t ∈ out.registry.schemas, ∀ x sp, RefersTo t x sp →
      x ∈ out.registry.names) ∧ ∀ x, FileRefersTo out.file x → x ∈ out.registry.names := by
  obtain ⟨file, decls, ws, es, seen, k, _, _, _, _, _, _, _, hu, _⟩ := Props.compile_ok h
  obtain ⟨_, hx, _⟩ := Props.C10_undefined_exactly out.file out.registry
  rw [hu] at hx
  simp only [List.map_nil, List.not_mem_nil, false_iff] at hx
  have hx' : ∀ x, ((∃ kt ∈ out.registry, ∃ sp, RefersTo kt.2 x sp) ∨ FileRefersTo out.file x) →
      x ∈ out.registry.names := fun x hr =>
    Decidable.byContradiction fun hn => hx x ⟨hr, hn⟩
  refine ⟨fun t ht x sp hr => ?_, fun x hr => hx' x (.inr hr)⟩
  obtain ⟨kt, hkt, rfl⟩ := List.mem_map.mp ht
  exact hx' x (.inl ⟨kt, hkt, sp, hr⟩)

theorem compile_distinct : (fullNames out.registry.schemas).Nodup := by
  rw [fullNames_registry h]
  obtain ⟨_, _, _, es, _, _, _, _, _, h4, _⟩ := Props.compile_ok h
  rw [h4]
  exact Props.C08_names_unique _

theorem compile_tableOk {d : Option String} (hc : Coherent out.registry.schemas)
    (hns : nsStr d ≠ "" → ∀ x ∈ fullNames out.registry.schemas, ¬ DotFree x) :
    TableOk d out.registry.schemas :=
  tableOk_of (fun t ht => (compile_types h t ht).2) (fun t ht => (compile_types h t ht).1)
    (compile_distinct h) (fun t ht x sp hr => by
      rw [fullNames_registry h]; exact (compile_refs h).1 t ht x sp hr) hc hns

theorem compile_protocol {p : Protocol} (hp : out.file = .protocol p) :
    p.types = out.registry.schemas ∧
    p.props.Avoids ["protocol", "namespace", "doc", "types", "messages"] ∧
    ∀ nm ∈ p.messages, nm.2.Plain := by
  obtain ⟨file, decls, ws, es, seen, k, h1, h2, _, _, _, _, h7, _⟩ := Props.compile_ok h
  rw [hp] at h7
  cases file with
  | schema s => exact h7.elim
  | named ss => exact h7.elim
  | protocol q =>
    simp only at h7
    obtain ⟨_, _, _, h8, _⟩ := (parseIdl_out h1).protocol q rfl
    refine ⟨by rw [h7], by rw [h7]; exact h8.avoids _, fun nm hnm => ?_⟩
    rw [h7] at hnm
    simp only at hnm
    obtain ⟨a1, a2⟩ := extendMessages_spec (es.flatMap Event.messages) [] (by simp)
    obtain ⟨_, b2⟩ := extendMessages_spec q.messages _ a1
    rcases (b2 nm.1 nm.2).mp hnm with hl | ⟨_, hl⟩
    · exact ((parseIdl_out h1).messages (nm.1, nm.2) (lastEntry_mem hl)).1
    · rcases (a2 nm.1 nm.2).mp hl with hl | ⟨_, hl⟩
      · obtain ⟨ev, hev, hm⟩ := List.mem_flatMap.mp (lastEntry_mem hl)
        exact (h2.out (parseIdl_out h1).decls ev hev).messages _ hm
      · cases hl

theorem compile_protocolOk {p : Protocol} (hp : out.file = .protocol p)
    (hc : CoherentProtocol p) : ProtocolOk p := by
  obtain ⟨h1, h2, h3⟩ := compile_protocol h hp
  have hr := (compile_refs h).2
  rw [hp] at hr
  have hT : TableOk p.ns p.types := by
    have := hc.types; have hn := hc.namespaced
    rw [h1] at this hn ⊢
    exact compile_tableOk h this hn
  have hrefs : ∀ x, FileRefersTo (.protocol p) x → x ∈ fullNames p.types ∧
      x ∉ primitiveTypeNames ∧ (DotFree x → nsStr p.ns = "") := by
    intro x hx
    have hk : x ∈ fullNames p.types := by rw [h1, fullNames_registry h]; exact hr x hx
    refine ⟨hk, hc.types.notPrimitive x hk, fun hd => Decidable.byContradiction fun hne => ?_⟩
    exact hc.namespaced hne x hk hd
  refine ⟨hT, fun nm hnm => ?_, h2⟩
  obtain ⟨n1, n2, n3⟩ := hc.messages nm hnm
  have hm := h3 nm hnm
  refine ⟨fun f hf => ⟨n1 f hf, ?_, (hm.request f hf).1⟩, ⟨n2, ?_⟩, fun es he s hs =>
    ⟨n3 es he s hs, ?_⟩, hm.props⟩
  · exact outOk_of_plain _ (n1 f hf) (hm.request f hf).2 fun x sp hx =>
      hrefs x (.parameter hnm hf hx)
  · exact outOk_of_plain _ n2 hm.response fun x sp hx => hrefs x (.response hnm hx)
  · exact outOk_of_plain _ (n3 es he s hs) (hm.errors es he s hs) fun x sp hx =>
      hrefs x (.error hnm he hs hx)

theorem compile_schema {s : Schema} (hs : out.file = .schema s)
    (hc : Coherent out.registry.schemas) :
    s.noDefs = true ∧ s.OutOk (· ∈ fullNames out.registry.schemas) "" := by
  have hr := (compile_refs h).2
  obtain ⟨file, decls, ws, es, seen, k, h1, _, _, _, _, _, h7, _⟩ := Props.compile_ok h
  rw [hs] at h7 hr
  cases file with
  | protocol q => exact h7.elim
  | named ss => exact h7.elim
  | schema s' =>
    simp only at h7
    subst h7
    obtain ⟨ns, ht⟩ := (parseIdl_out h1).schema s rfl
    refine ⟨ht.plain.2, outOk_of_plain s ht.plain.2 ht.plain.1 fun x sp hx => ?_⟩
    have hk : x ∈ fullNames out.registry.schemas := by
      rw [fullNames_registry h]; exact hr x (.schema hx)
    exact ⟨hk, hc.notPrimitive x hk, fun _ => rfl⟩

end
end
end Avdl
