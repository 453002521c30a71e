import Verif.Spec.ValidDoc
import Verif.Lemmas.AvroJson
import Verif.Lemmas.RoundTripProtocol
import Verif.Lemmas.Reimport
/-! # Valid documents -/

namespace Avdl
open Spec

/-- The attributes of a primitive are read as the Avro specification says. -/
def PrimDoc (p : Prim) (obj : JMap) : Prop :=
  (NamesLogical obj.get? → ∃ lt, LogicalDoc obj p lt) ∧
  ∀ n, obj.get? "logicalType" = some (.str n) → n ∈ logicalBases.map Prod.fst →
    n ≠ "decimal" → obj.get? "precision" = none ∧ obj.get? "scale" = none

/-! ## Valid documents have a meaning, which is what is read -/

theorem validHead_name {obj : JMap} (h : ValidHead obj) (d : Option String) :
    ∃ name ns, DocName d obj name ns ∧ namedTypeName obj d = some (name, ns) := by
  obtain ⟨n, hn, hdf⟩ := h.name
  have hr : ∀ raw, obj.get? "name" = some (.str raw) → ¬ DotFree raw →
      obj.get? "namespace" = none := by
    intro raw h1 h2
    rw [hn] at h1
    cases h1
    exact absurd hdf h2
  obtain ⟨ns, hns⟩ := h.ns
  cases hns with
  | absent h0 => exact ⟨_, _, .inherited hn hdf h0, (DocName.inherited hn hdf h0).eq hr⟩
  | present h0 => exact ⟨_, _, .given hn hdf h0, (DocName.given hn hdf h0).eq hr⟩

theorem referenceName_total (d : Option String) (s : String) :
    ∃ name ns, ReferenceName d s name ns := by
  obtain ⟨name, ns, h, _⟩ := refTo_means s none d
  exact ⟨name, ns, h⟩

theorem prim_or_not (s : String) : (∃ p : Prim, s = p.asStr) ∨ s ∉ primitives := by
  by_cases h : s ∈ primitives
  · left
    simp only [primitives, List.mem_cons, List.not_mem_nil, or_false] at h
    rcases h with rfl | rfl | rfl | rfl | rfl | rfl | rfl | rfl
    · exact ⟨.null, rfl⟩
    · exact ⟨.boolean, rfl⟩
    · exact ⟨.int, rfl⟩
    · exact ⟨.long, rfl⟩
    · exact ⟨.float, rfl⟩
    · exact ⟨.double, rfl⟩
    · exact ⟨.bytes, rfl⟩
    · exact ⟨.string, rfl⟩
  · exact .inr h

mutual
theorem validType_means : ∀ {j : Json}, ValidType PrimDoc j → ∀ d,
    ∃ s, SchemaDoc d j s ∧ jsonToSchema d j = .ok s
  | _, .name (s := s), d => by
      rcases prim_or_not s with ⟨p, rfl⟩ | hp
      · exact ⟨_, .prim, by simp [jsonToSchema, stringToSchema, ofStr?_asStr]⟩
      · obtain ⟨name, ns, h⟩ := referenceName_total d s
        exact ⟨_, .ref hp h, by simp only [jsonToSchema]; rw [stringToSchema_names hp h]⟩
  | _, .union h, d => by
      obtain ⟨ts, h1, h2⟩ := validTypes_means h d
      exact ⟨_, .union h1, by simp only [jsonToSchema]; rw [h2]⟩
  | _, .record ht hk hh hl hf, d => by
      obtain ⟨name, ns, hn, hn'⟩ := validHead_name hh d
      obtain ⟨doc, hd⟩ := hh.doc
      obtain ⟨al, ha⟩ := hh.aliases
      obtain ⟨fs, h1, h2⟩ := validFields_means hf ns
      rcases hk with rfl | rfl
      · refine ⟨_, .record ht hn hd hl h1 ha, ?_⟩
        rw [import_record (er := false) (getStr_some ht) hn' hl (by rw [hn.ns]; exact h2), hd.eq,
          ha.eq]
        rfl
      · refine ⟨_, .error ht hn hd hl h1 ha, ?_⟩
        rw [import_record (er := true) (getStr_some ht) hn' hl (by rw [hn.ns]; exact h2), hd.eq,
          ha.eq]
        rfl
  | _, .enum ht hh hs hdf, d => by
      obtain ⟨name, ns, hn, hn'⟩ := validHead_name hh d
      obtain ⟨doc, hd⟩ := hh.doc
      obtain ⟨al, ha⟩ := hh.aliases
      refine ⟨_, .enum ht hn hd hs hdf ha, ?_⟩
      rw [import_enum (getStr_some ht)]
      simp only [parseEnum, hn', hd.eq, hdf.eq, ha.eq, hs, extractStringArray_strs]
      rfl
  | _, .fixed ht hh hs hlt, d => by
      obtain ⟨name, ns, hn, hn'⟩ := validHead_name hh d
      obtain ⟨doc, hd⟩ := hh.doc
      obtain ⟨al, ha⟩ := hh.aliases
      refine ⟨_, .fixed ht hn hd hs hlt ha, ?_⟩
      rw [import_fixed (getStr_some ht)]
      refine parseFixed_doc hn hd hs hlt ha fun raw h1 h2 => ?_
      obtain ⟨n, hn, hdf⟩ := hh.name
      rw [hn] at h1
      cases h1
      exact absurd hdf h2
  | _, .array ht hi h, d => by
      obtain ⟨s, h1, h2⟩ := validType_means h d
      exact ⟨_, .array ht hi h1, import_array (getStr_some ht) hi h2⟩
  | _, .map ht hi h, d => by
      obtain ⟨s, h1, h2⟩ := validType_means h d
      exact ⟨_, .map ht hi h1, import_map (getStr_some ht) hi h2⟩
  | _, .primitive (obj := obj) (p := p) ht hP, d => by
      by_cases hl : ∃ lt, LogicalDoc obj p lt
      · obtain ⟨lt, hl⟩ := hl
        refine ⟨_, .logical ht hl, ?_⟩
        rw [jsonToSchema_primitive ht, parseAnnotatedPrimitive_logical hl hP.2]
      · have hl' : ∀ lt, ¬ LogicalDoc obj p lt := fun lt h => hl ⟨lt, h⟩
        by_cases ho : otherMembers obj ["type"] = []
        · refine ⟨_, .bare ht ho, ?_⟩
          rw [jsonToSchema_primitive ht, parseAnnotatedPrimitive_other hl' hP.1, if_pos ho]
        · refine ⟨_, .annotated ht ho hl', ?_⟩
          rw [jsonToSchema_primitive ht, parseAnnotatedPrimitive_other hl' hP.1, if_neg ho]
theorem validTypes_means : ∀ {l : List Json}, ValidTypes PrimDoc l → ∀ d,
    ∃ ss, SchemaDocs d l ss ∧ jsonToSchemaList d l = .ok ss
  | _, .nil, d => ⟨_, .nil, by simp only [jsonToSchemaList]⟩
  | _, .cons h1 h2, d => by
      obtain ⟨s, a1, a2⟩ := validType_means h1 d
      obtain ⟨ss, b1, b2⟩ := validTypes_means h2 d
      exact ⟨_, .cons a1 b1, by simp only [jsonToSchemaList]; rw [a2, b2]⟩
theorem validFields_means : ∀ {l : List Json}, ValidFields PrimDoc l → ∀ d,
    ∃ fs, FieldDocs d l fs ∧ jsonToFieldList d l = .ok fs
  | _, .nil, d => ⟨_, .nil, by simp only [jsonToFieldList]⟩
  | _, .cons hn ht h hd ho ha h2, d => by
      obtain ⟨s, a1, a2⟩ := validType_means h d
      obtain ⟨fs, b1, b2⟩ := validFields_means h2 d
      refine ⟨_, .cons hn ht a1 hd ho ha b1, ?_⟩
      simp only [jsonToFieldList, jsonToField]
      rw [getStr_some hn]
      simp only [schemaEntry_eq, ht, Option.map_some]
      rw [a2, b2]
      simp only [fieldOf, hd.eq, ho.eq, ha.eq]
      rfl
end

theorem validMessage_means {j : Json} (h : ValidMessage PrimDoc j) (d : Option String) :
    ∃ m, MessageDoc d j m ∧ jsonToMessage d j = .ok m := by
  cases h with
  | @mk obj doc l jr hd hq hf hp hs he ho =>
    obtain ⟨fs, a1, a2⟩ := validFields_means hf d
    obtain ⟨s, b1, b2⟩ := validType_means hs d
    have ho' : ∃ b, OneWayDoc obj b ∧ ((JMap.get? obj "one-way").bind Json.asBool).getD false = b := by
      rcases ho with ho | ho
      · exact ⟨false, .absent ho, by simp [ho]⟩
      · exact ⟨true, .present ho, by simp [ho, Json.asBool]⟩
    obtain ⟨b, o1, o2⟩ := ho'
    rcases he with he | ⟨es, he, hes⟩
    · refine ⟨_, .mk hd hq a1 hp b1 (.absent he) o1, ?_⟩
      simp only [jsonToMessage, hq, fieldsOfJson, a2, schemaEntry_eq, hp, Option.map_some, b2]
      rw [hd.eq, o2, he]
      rfl
    · obtain ⟨ts, c1, c2⟩ := validTypes_means hes d
      refine ⟨_, .mk hd hq a1 hp b1 (.present he c1) o1, ?_⟩
      simp only [jsonToMessage, hq, fieldsOfJson, a2, schemaEntry_eq, hp, Option.map_some, b2]
      rw [hd.eq, o2, he]
      simp only
      rw [c2]
      rfl

theorem validMessages_mean {d : Option String} : ∀ {l : JMap},
    (∀ kv ∈ l, ValidMessage PrimDoc kv.2) → ∃ ms, MessageDocs d l ms ∧ importMessages d l = .ok ms
  | [], _ => ⟨_, .nil, rfl⟩
  | kv :: l, h => by
      obtain ⟨m, a1, a2⟩ := validMessage_means (h kv (List.mem_cons_self ..)) d
      obtain ⟨ms, b1, b2⟩ := validMessages_mean (l := l) fun x hx => h x (List.mem_cons_of_mem _ hx)
      exact ⟨_, .cons a1 b1, by simp only [importMessages]; rw [a2, b2]⟩

/-! ## What is written is valid -/

/-- The objects written for primitives with annotations satisfy `P`. -/
def WrittenPrim (P : Prim → JMap → Prop) : Schema → Prop
  | .annotated k ps => P k ((JMap.insert "type" (.str k.asStr) []).insertAll ps)
  | .logical lt ps => P lt.base (logicalObj lt ps)
  | _ => True

/-- Conditions on a type for being written as a valid document. -/
structure FitNode (P : Prim → JMap → Prop) (s : Schema) : Prop where
  plain : PlainNode s
  size : ∀ n ns d sz al ps, s = .fixed n ns d sz al ps → sz < 2 ^ 32
  prim : WrittenPrim P s

/-- The conditions for all types in it. -/
def Fit (P : Prim → JMap → Prop) (s : Schema) : Prop :=
  ∃ e, s.Everywhere (fun _ => FitNode P) OutField e

mutual
theorem everywhere_true : ∀ (s : Schema) (e : String),
    s.Everywhere (fun _ _ => True) (fun _ => True) e
  | .prim _, _ | .enum .., _ | .fixed .., _ | .annotated .., _ | .logical .., _ | .ref .., _ =>
      trivial
  | .union ts _, e => ⟨trivial, everywhere_trueL ts e⟩
  | .record _ _ _ fs _ _ _, _ => ⟨trivial, everywhere_trueF fs _⟩
  | .array i _, e => ⟨trivial, everywhere_true i e⟩
  | .map i _, e => ⟨trivial, everywhere_true i e⟩
theorem everywhere_trueF : ∀ (fs : List Field) (e : String),
    Schema.EverywhereF (fun _ _ => True) (fun _ => True) e fs
  | [], _ => trivial
  | .mk _ s _ _ _ _ _ :: fs, e => ⟨trivial, everywhere_true s e, everywhere_trueF fs e⟩
theorem everywhere_trueL : ∀ (ss : List Schema) (e : String),
    Schema.EverywhereL (fun _ _ => True) (fun _ => True) e ss
  | [], _ => trivial
  | s :: ss, e => ⟨everywhere_true s e, everywhere_trueL ss e⟩
end

section
variable {P : Prim → JMap → Prop} {X Y : Schema → Prop}
  (H : ∀ s, PlainNode s → KeptNode s → X s → Y s → WrittenPrim P s)
include H

theorem fitNode_of {s : Schema} (hp : PlainNode s) (hk : KeptNode s) (hx : X s) (hy : Y s) :
    FitNode P s :=
  ⟨hp, fun n ns d sz al ps h => by subst h; exact And.left (hk : sz < 2 ^ 32 ∧ Ann ps),
    H s hp hk hx hy⟩

mutual
theorem fits_of : ∀ {s : Schema} {e : String}, s.Plain → s.Kept →
    s.Everywhere (fun _ => X) (fun _ => True) e → s.Everywhere (fun _ => Y) (fun _ => True) e →
    s.Everywhere (fun _ => FitNode P) OutField e
  | .prim _, _, hp, hk, hx, hy => fitNode_of (s := .prim _) H hp hk hx hy
  | .union _ _, _, hp, hk, hx, hy =>
      ⟨fitNode_of (s := .union ..) H trivial trivial hx.1 hy.1, fits_ofL hp hk hx.2 hy.2⟩
  | .record .., _, hp, hk, hx, hy =>
      ⟨fitNode_of H hp.1 hk.1 hx.1 hy.1, fits_ofF hp.2 hk.2 hx.2 hy.2⟩
  | .enum .., _, hp, hk, hx, hy => fitNode_of (s := .enum ..) H hp hk hx hy
  | .fixed .., _, hp, hk, hx, hy => fitNode_of (s := .fixed ..) H hp hk hx hy
  | .array .., _, hp, hk, hx, hy =>
      ⟨fitNode_of H hp.1 hk.1 hx.1 hy.1, fits_of hp.2 hk.2 hx.2 hy.2⟩
  | .map .., _, hp, hk, hx, hy =>
      ⟨fitNode_of H hp.1 hk.1 hx.1 hy.1, fits_of hp.2 hk.2 hx.2 hy.2⟩
  | .annotated .., _, hp, hk, hx, hy => fitNode_of (s := .annotated ..) H hp hk hx hy
  | .logical .., _, hp, hk, hx, hy => fitNode_of (s := .logical ..) H hp hk hx hy
  | .ref .., _, hp, hk, hx, hy => fitNode_of (s := .ref ..) H hp hk hx hy
theorem fits_ofF : ∀ {fs : List Field} {e : String}, Schema.PlainF fs → Schema.KeptF fs →
    Schema.EverywhereF (fun _ => X) (fun _ => True) e fs →
    Schema.EverywhereF (fun _ => Y) (fun _ => True) e fs →
    Schema.EverywhereF (fun _ => FitNode P) OutField e fs
  | [], _, _, _, _, _ => trivial
  | .mk .. :: _, _, hp, hk, hx, hy =>
      ⟨hp.1, fits_of hp.2.1 hk.2.1 hx.2.1 hy.2.1, fits_ofF hp.2.2 hk.2.2 hx.2.2 hy.2.2⟩
theorem fits_ofL : ∀ {ss : List Schema} {e : String}, Schema.PlainL ss → Schema.KeptL ss →
    Schema.EverywhereL (fun _ => X) (fun _ => True) e ss →
    Schema.EverywhereL (fun _ => Y) (fun _ => True) e ss →
    Schema.EverywhereL (fun _ => FitNode P) OutField e ss
  | [], _, _, _, _, _ => trivial
  | _ :: _, _, hp, hk, hx, hy => ⟨fits_of hp.1 hk.1 hx.1 hy.1, fits_ofL hp.2 hk.2 hx.2 hy.2⟩
end
end

theorem optText_map {obj : JMap} {k : String} {o : Option String} (h : obj.get? k = o.map .str) :
    OptText obj k o := by
  cases o with
  | none => exact .absent h
  | some s => exact .present h

theorem validTypes_of {P : Prim → JMap → Prop} : ∀ {l : List Json}, (∀ j ∈ l, ValidType P j) →
    ValidTypes P l
  | [], _ => .nil
  | _ :: _, h => .cons (h _ (List.mem_cons_self ..))
      (validTypes_of fun j hj => h j (List.mem_cons_of_mem _ hj))

/-- A valid field. -/
def ValidField (P : Prim → JMap → Prop) (j : Json) : Prop := ValidFields P [j]

theorem validFields_of {P : Prim → JMap → Prop} : ∀ {l : List Json}, (∀ j ∈ l, ValidField P j) →
    ValidFields P l
  | [], _ => .nil
  | _ :: _, h => by
      have h2 := validFields_of fun j hj => h j (List.mem_cons_of_mem _ hj)
      cases h _ (List.mem_cons_self ..) with
      | cons a b c d e f _ => exact .cons a b c d e f h2

/-- The entries common to named types. -/
theorem written_head {t n : String} {ns doc encl : Option String} {K K1 : Known} {obj obj' : JMap}
    (h : namedTypePreamble t n ns doc K encl = .ok (obj, K1)) (hdf : DotFree n) {ps : Props}
    {al : List String} {keys : List String} (hps : ps.Avoids keys) (ha : "aliases" ∈ keys)
    (hk : ∀ k ∈ ["type", "name", "namespace", "doc"], k ∈ keys)
    (ho : ∀ k ∈ ["type", "name", "namespace", "doc", "aliases"], obj'.get? k = obj.get? k) :
    (finishNamedType obj' ps al ns).get? "type" = some (.str t) ∧
    ValidHead (finishNamedType obj' ps al ns) := by
  have hpk := preamble_keys h
  obtain ⟨-, -, h1, h2, h3, h4⟩ := preamble_ok h
  have hget : ∀ k ∈ ["type", "name", "namespace", "doc"],
      (finishNamedType obj' ps al ns).get? k = obj.get? k := by
    intro k hk'
    have : k ≠ "aliases" := by rintro rfl; simp at hk'
    rw [finish_get? hps (hk k hk') this, ho k (by
      simp only [List.mem_cons, List.not_mem_nil, or_false] at hk' ⊢
      rcases hk' with h | h | h | h <;> simp [h])]
  refine ⟨by rw [hget _ (by simp), h1], ⟨n, by rw [hget _ (by simp), h2], hdf⟩, ?_, ?_, ?_⟩
  · have h5 := hget "namespace" (by simp)
    rw [h3] at h5
    unfold nsEntry at h5
    split at h5
    · split at h5
      · exact ⟨_, .present h5⟩
      · exact ⟨_, .absent h5⟩
    · exact ⟨_, .absent h5⟩
  · exact ⟨doc, optText_map (by rw [hget _ (by simp), h4])⟩
  · unfold finishNamedType
    simp only
    split
    · refine ⟨_, .absent ?_⟩
      rw [get?_insertAll_avoid hps ha, ho _ (by simp)]
      exact get?_none_of_keysIn hpk (by simp)
    · refine ⟨al.map fun a => aliasRefName a ns, .present ?_⟩
      rw [JMap.get?_insert_self, List.map_map]
      rfl

theorem fieldObj_valid {P : Prim → JMap → Prop} {f : Field} {j : Json} (h : OutField f)
    (hj : ValidType P j) : ValidField P (.obj (fieldObj f j)) := by
  have key : ∀ k ∈ ["name", "type", "doc", "default", "order", "aliases"],
      (fieldObj f j).get? k = (fieldBase f j).get? k := fun k hk => get?_insertAll_avoid h hk
  obtain ⟨h1, h2, -⟩ := fieldObj_get? f j h
  have hord : ∃ o, OrderDoc (fieldObj f j) o := by
    have hb : (fieldObj f j).get? "order" = (orderEntry f.order []).get? "order" := by
      rw [key _ (by simp)]
      unfold fieldBase orderEntry
      cases f.doc <;> cases f.default <;> cases f.order <;> (try cases ‹FieldOrder›) <;>
        simp only [] <;> split <;> simp [JMap.get?_insert, JMap.get?]
    unfold orderEntry at hb
    split at hb
    · exact ⟨_, .descending (by rw [hb]; simp [JMap.get?_insert])⟩
    · exact ⟨_, .ignore (by rw [hb]; simp [JMap.get?_insert])⟩
    · exact ⟨_, .absent hb⟩
    · exact ⟨_, .absent hb⟩
  have hal : ∃ al, OptTexts (fieldObj f j) "aliases" al := by
    by_cases ha : f.aliases = []
    · refine ⟨_, .absent ?_⟩
      rw [key _ (by simp)]
      unfold fieldBase orderEntry
      cases f.doc <;> cases f.default <;> cases f.order <;> (try cases ‹FieldOrder›) <;>
        simp [ha, JMap.get?_insert, JMap.get?]
    · refine ⟨f.aliases, .present ?_⟩
      rw [key _ (by simp)]
      unfold fieldBase
      simp [ha, JMap.get?_insert]
  obtain ⟨o, ho⟩ := hord
  obtain ⟨al, hal⟩ := hal
  exact .cons h1 (get?_fieldObj f j h) hj (optText_map h2) ho hal .nil

section
variable {P : Prim → JMap → Prop} {lk : Lookup} (hl : ∀ n s, lk.get? n = some s → Fit P s)
include hl

theorem schemaToJson_valid : ∀ (n : Nat)
    (s : Schema) (encl : Option String) (k : Known) (j : Json) (k' : Known), Fit P s →
    schemaToJson lk n s encl k = some (j, k') → ValidType P j := by
  intro n
  induction n with
  | zero => intro s encl k j k' _ h; cases h
  | succ n ih =>
    intro s encl k j k' hs h
    obtain ⟨e, hs⟩ := hs
    cases s with
    | prim p =>
      simp only [schemaToJson, Option.some.injEq, Prod.mk.injEq] at h
      rw [← h.1]; exact .name
    | annotated p ps =>
      simp only [schemaToJson, Option.some.injEq, Prod.mk.injEq] at h
      rw [← h.1]
      refine .primitive (p := p) ?_ hs.prim
      rw [get?_insertAll_avoid (hs.plain : ps.Avoids ["type"]) (by simp), JMap.get?_insert_self]
    | logical lt ps =>
      simp only [schemaToJson, Option.some.injEq, Prod.mk.injEq] at h
      rw [← h.1]
      refine .primitive (p := lt.base) ?_ hs.prim
      unfold logicalObj
      simp only
      rw [get?_insertAll_avoid (hs.plain : ps.Avoids ["type"]) (by simp)]
      cases lt <;> simp [JMap.get?_insert]
    | ref nm ns ps sp =>
      simp only [schemaToJson] at h
      split at h
      · simp only [Option.some.injEq, Prod.mk.injEq] at h
        rw [← h.1]; exact .name
      · split at h
        · rename_i r hr
          exact ih r encl k j k' (hl _ _ hr) h
        · simp only [Option.some.injEq, Prod.mk.injEq] at h
          rw [← h.1]; exact .name
    | union ts b =>
      simp only [schemaToJson] at h
      split at h
      · cases h
      · rename_i js k1 hm
        simp only [Option.some.injEq, Prod.mk.injEq] at h
        rw [← h.1]
        refine .union (validTypes_of (mapAccum_all ts (fun t ht s b s' hb => ?_) _ _ _ hm))
        exact ih t encl s b s' ⟨e, (Schema.everywhereL_iff ts).mp hs.2 t ht⟩ hb
    | array i ps =>
      simp only [schemaToJson] at h
      split at h
      · cases h
      · rename_i ij k1 hi
        simp only [Option.some.injEq, Prod.mk.injEq] at h
        rw [← h.1]
        have hp : ps.Avoids ["type", "items"] := hs.1.plain
        refine .array ?_ ?_ (ih i encl k ij k1 ⟨e, hs.2⟩ hi)
        · rw [get?_insertAll_avoid hp (by simp)]; simp [JMap.get?_insert]
        · rw [get?_insertAll_avoid hp (by simp)]; simp [JMap.get?_insert]
    | map i ps =>
      simp only [schemaToJson] at h
      split at h
      · cases h
      · rename_i ij k1 hi
        simp only [Option.some.injEq, Prod.mk.injEq] at h
        rw [← h.1]
        have hp : ps.Avoids ["type", "values"] := hs.1.plain
        refine .map ?_ ?_ (ih i encl k ij k1 ⟨e, hs.2⟩ hi)
        · rw [get?_insertAll_avoid hp (by simp)]; simp [JMap.get?_insert]
        · rw [get?_insertAll_avoid hp (by simp)]; simp [JMap.get?_insert]
    | enum nm ns doc sy df al ps =>
      simp only [schemaToJson] at h
      split at h
      · rename_i bare hb
        simp only [Option.some.injEq, Prod.mk.injEq] at h
        rw [← h.1, (preamble_error hb).2]; exact .name
      · rename_i obj k1 hp
        simp only [Option.some.injEq, Prod.mk.injEq] at h
        rw [← h.1]
        obtain ⟨hdf, hps⟩ : DotFree nm ∧ ps.Avoids enumKeys := hs.plain
        have ho : ∀ k, k ≠ "symbols" → k ≠ "default" →
            (enumObj sy df obj).get? k = obj.get? k := by
          intro k h1 h2
          unfold enumObj
          cases df <;> simp [JMap.get?_insert, h1, h2]
        obtain ⟨h1, h2⟩ := written_head (obj' := enumObj sy df obj) (al := al) hp hdf hps (by simp [enumKeys])
          (by simp [enumKeys]) (by
            intro k hk
            refine ho k ?_ ?_ <;> (rintro rfl; simp at hk))
        refine .enum (symbols := sy) (dflt := df) h1 h2 ?_ (optText_map ?_)
        · rw [finish_get? hps (by simp [enumKeys]) (by decide)]
          unfold enumObj
          cases df <;> simp [JMap.get?_insert]
        · rw [finish_get? hps (by simp [enumKeys]) (by decide)]
          unfold enumObj
          cases df with
          | none =>
            simp only [JMap.get?_insert_ne _ _ (show "default" ≠ "symbols" by decide)]
            exact get?_none_of_keysIn (preamble_keys hp) (by simp)
          | some x => simp [JMap.get?_insert]
    | fixed nm ns doc sz al ps =>
      simp only [schemaToJson] at h
      split at h
      · rename_i bare hb
        simp only [Option.some.injEq, Prod.mk.injEq] at h
        rw [← h.1, (preamble_error hb).2]; exact .name
      · rename_i obj k1 hp
        simp only [Option.some.injEq, Prod.mk.injEq] at h
        rw [← h.1]
        obtain ⟨hdf, hps⟩ : DotFree nm ∧ ps.Avoids fixedKeys := hs.plain
        obtain ⟨h1, h2⟩ := written_head (obj' := JMap.insert "size" (.num (.int sz)) obj) (al := al)
          hp hdf hps (by simp [fixedKeys]) (by simp [fixedKeys]) (by
            intro k hk
            refine JMap.get?_insert_ne _ _ ?_
            rintro rfl; simp at hk)
        refine .fixed h1 h2 ?_ (hs.size _ _ _ _ _ _ rfl)
        rw [finish_get? hps (by simp [fixedKeys]) (by decide), JMap.get?_insert_self]
    | record nm ns doc fs er al ps =>
      simp only [schemaToJson] at h
      split at h
      · rename_i bare hb
        simp only [Option.some.injEq, Prod.mk.injEq] at h
        rw [← h.1, (preamble_error hb).2]; exact .name
      · rename_i obj k1 hp
        split at h
        · cases h
        · rename_i fj k2 hm
          simp only [Option.some.injEq, Prod.mk.injEq] at h
          rw [← h.1]
          obtain ⟨hdf, hps⟩ : DotFree nm ∧ ps.Avoids recordKeys := hs.1.plain
          obtain ⟨h1, h2⟩ := written_head (obj' := JMap.insert "fields" (.arr fj) obj) (al := al)
            hp hdf hps (by simp [recordKeys]) (by simp [recordKeys]) (by
              intro k hk
              refine JMap.get?_insert_ne _ _ ?_
              rintro rfl; simp at hk)
          refine .record h1 (by cases er <;> simp) h2 ?_
            (validFields_of (mapAccum_all fs (fun f hf s b s' hb => ?_) _ _ _ hm))
          · rw [finish_get? hps (by simp [recordKeys]) (by decide), JMap.get?_insert_self]
          · obtain ⟨hf1, hf2⟩ := (Schema.everywhereF_iff fs).mp hs.2 f hf
            unfold fieldToJson at hb
            split at hb
            · cases hb
            · rename_i x k1 hx
              simp only [Option.some.injEq, Prod.mk.injEq] at hb
              rw [← hb.1]
              exact fieldObj_valid hf1 (ih _ _ _ _ _ ⟨_, hf2⟩ hx)

theorem messageToJson_valid {n : Nat} {encl : Option String} {m : Message} (hm : m.Plain)
    (hq : ∀ f ∈ m.request, Fit P f.schema) (hr : Fit P m.response)
    (he : ∀ es, m.errors = some es → ∀ s ∈ es, Fit P s) {k k' : Known} {j : Json}
    (h : messageToJson lk n encl m k = some (j, k')) : ValidMessage P j := by
  unfold messageToJson at h
  split at h
  · cases h
  · rename_i req k1 hreq
    split at h
    · cases h
    · rename_i resp k2 hresp
      have h1 : ValidFields P req := validFields_of (mapAccum_all _ (fun f hf s b s' hb => by
        unfold fieldToJson at hb
        split at hb
        · cases hb
        · rename_i x k1 hx
          simp only [Option.some.injEq, Prod.mk.injEq] at hb
          rw [← hb.1]
          exact fieldObj_valid (hm.request f hf).1
            (schemaToJson_valid hl n _ _ _ _ _ (hq f hf) hx)) _ _ _ hreq)
      have h2 := schemaToJson_valid hl n _ _ _ _ _ hr hresp
      have hone : ∀ errs, (messageObj m req resp errs).get? "one-way" = none ∨
          (messageObj m req resp errs).get? "one-way" = some (.bool true) := by
        intro errs
        have := fun o : JMap => get?_insertAll_avoid (m := o) hm.props (k := "one-way") (by simp)
        unfold messageObj
        obtain ⟨doc, props, request, response, errors, oneWay⟩ := m
        cases errs <;> cases oneWay <;> simp [JMap.get?_insert] <;> rw [this] <;> cases doc <;>
          simp [JMap.get?_insert, JMap.get?]
      have hdoc : ∀ errs, (messageObj m req resp errs).get? "doc" = m.doc.map .str := by
        intro errs
        have := fun o : JMap => get?_insertAll_avoid (m := o) hm.props (k := "doc") (by simp)
        unfold messageObj
        obtain ⟨doc, props, request, response, errors, oneWay⟩ := m
        cases errs <;> cases oneWay <;> simp [JMap.get?_insert] <;> rw [this] <;> cases doc <;>
          simp [JMap.get?_insert, JMap.get?]
      split at h
      · simp only [Option.some.injEq, Prod.mk.injEq] at h
        rw [← h.1]
        obtain ⟨g1, g2, g3⟩ := get?_messageObj hm.props req resp none
        exact .mk (optText_map (hdoc _)) g1 h1 g2 h2 (.inl g3) (hone _)
      · rename_i es hes
        split at h
        · cases h
        · rename_i ej k3 hej
          simp only [Option.some.injEq, Prod.mk.injEq] at h
          rw [← h.1]
          obtain ⟨g1, g2, g3⟩ := get?_messageObj hm.props req resp (some ej)
          refine .mk (optText_map (hdoc _)) g1 h1 g2 h2 (.inr ⟨ej, g3, ?_⟩) (hone _)
          exact validTypes_of (mapAccum_all es (fun s hs k b k' hb =>
            schemaToJson_valid hl n s _ _ _ _ (he es hes s hs) hb) _ _ _ hej)
end

theorem buildLookup_fit {P : Prim → JMap → Prop} {d : Option String} {ts : List Schema}
    (hf : ∀ t ∈ ts, t.flatDef = true) (ht : ∀ t ∈ ts, Fit P t) :
    ∀ n s, (buildLookup ts d).get? n = some s → Fit P s := by
  intro n s h
  rw [buildLookup_flat d ts hf] at h
  have := Lookup.mem_of_get? h
  simp only [List.mem_reverse, List.mem_map, Prod.mk.injEq] at this
  obtain ⟨t, h1, _, rfl⟩ := this
  exact ht t h1

/-- The first entries written for a protocol. -/
def protocolHead (p : Protocol) : JMap :=
  let obj := JMap.insert "protocol" (.str p.name) []
  let obj := match p.ns with
    | some ns => if ns = "" then obj else JMap.insert "namespace" (.str ns) obj
    | none => obj
  match p.doc with
  | some d => JMap.insert "doc" (.str d) obj
  | none => obj

theorem protocolObj_eq (p : Protocol) (types : List Json) (msgs : List (String × Json)) :
    protocolObj p types msgs = JMap.insert "messages" (.obj (JMap.insertAll [] msgs))
      (JMap.insert "types" (.arr (types.filter fun v => !v.isStr))
        ((protocolHead p).insertAll p.props)) := rfl

theorem mapAccum_keys {α σ : Type} {g : α → σ → Option (Json × σ)} :
    ∀ {l : List (String × α)} {k k' : σ} {bs : List (String × Json)},
    mapAccum (fun (nm : String × α) k => (g nm.2 k).map fun jk => ((nm.1, jk.1), jk.2)) l k =
      some (bs, k') → bs.map Prod.fst = l.map Prod.fst
  | [], k, k', bs, h => by
      simp only [mapAccum, Option.some.injEq, Prod.mk.injEq] at h
      rw [← h.1]; rfl
  | nm :: l, k, k', bs, h => by
      simp only [mapAccum] at h
      cases h1 : g nm.2 k with
      | none => rw [h1] at h; cases h
      | some r =>
        rw [h1] at h
        simp only [Option.map_some] at h
        split at h
        · cases h
        · rename_i bs2 s2 h2
          simp only [Option.some.injEq, Prod.mk.injEq] at h
          rw [← h.1]
          simp only [List.map_cons]
          rw [mapAccum_keys h2]

theorem protocolToJson_valid {P : Prim → JMap → Prop} {n : Nat} {p : Protocol}
    (hf : ∀ t ∈ p.types, t.flatDef = true) (ht : ∀ t ∈ p.types, Fit P t)
    (hp : p.props.Avoids ["protocol", "namespace", "doc", "types", "messages"])
    (hdist : (p.messages.map Prod.fst).Nodup) (hm : ∀ nm ∈ p.messages, nm.2.Plain ∧
      (∀ f ∈ nm.2.request, Fit P f.schema) ∧ Fit P nm.2.response ∧
      ∀ es, nm.2.errors = some es → ∀ s ∈ es, Fit P s) {j : Json}
    (h : protocolToJson n p = some j) : ValidProtocol P j ∧
      ∃ obj : JMap, j = .obj obj ∧ obj.get? "protocol" = some (.str p.name) ∧
        OptText obj "doc" p.doc ∧ (∃ ns, OptText obj "namespace" ns ∧ SameNs p.ns ns) ∧
        (p.props.Wf → SameMap p.props
          (otherMembers obj ["protocol", "namespace", "doc", "types", "messages"])) := by
  have hl := buildLookup_fit (d := p.ns) hf ht
  unfold protocolToJson at h
  simp only at h
  split at h
  · cases h
  · rename_i types k1 h1
    split at h
    · cases h
    · rename_i msgs k2 h2
      injection h with h
      subst h
      have a1 : ∀ j ∈ types, ValidType P j := mapAccum_all _ (fun t htm k b k' hb =>
        schemaToJson_valid hl n t _ _ _ _ (ht t htm) hb) _ _ _ h1
      have a2 : ∀ kv ∈ msgs, ValidMessage P kv.2 :=
        mapAccum_all (P := fun x : String × Json => ValidMessage P x.2) _
        (fun nm hnm k b k' hb => by
          obtain ⟨⟨j, k1⟩, hj, he⟩ := Option.map_eq_some_iff.mp hb
          cases he
          obtain ⟨m1, m2, m3, m4⟩ := hm nm hnm
          exact messageToJson_valid hl m1 m2 m3 m4 hj) _ _ _ h2
      have a3 : msgs.map Prod.fst = p.messages.map Prod.fst := mapAccum_keys h2
      have hperm := insertAll_nil_perm (l := msgs) (by rw [a3]; exact hdist)
      obtain ⟨g1, g2, -⟩ := get?_protocolObj hp types msgs
      have hb : ∀ k ∈ ["protocol", "namespace", "doc"], (protocolObj p types msgs).get? k =
          (protocolHead p).get? k := by
        intro k hk
        rw [protocolObj_eq]
        rw [JMap.get?_insert_ne _ _ (by rintro rfl; simp at hk),
          JMap.get?_insert_ne _ _ (by rintro rfl; simp at hk),
          get?_insertAll_avoid hp (by
            simp only [List.mem_cons, List.not_mem_nil, or_false] at hk
            rcases hk with rfl | rfl | rfl <;> simp)]
      have c1 : (protocolObj p types msgs).get? "protocol" = some (.str p.name) := by
        rw [hb _ (by simp)]
        unfold protocolHead
        cases p.doc <;> cases p.ns <;> simp only [] <;> (try split) <;> simp [JMap.get?_insert]
      have c2 : OptText (protocolObj p types msgs) "doc" p.doc := by
        apply optText_map
        rw [hb _ (by simp)]
        unfold protocolHead
        cases p.doc <;> cases p.ns <;> simp only [] <;> (try split) <;>
          simp [JMap.get?_insert, JMap.get?]
      have c3 : ∃ ns, OptText (protocolObj p types msgs) "namespace" ns ∧ SameNs p.ns ns := by
        have hn := hb "namespace" (by simp)
        cases hns : p.ns with
        | none =>
          refine ⟨none, .absent ?_, rfl⟩
          rw [hn]
          unfold protocolHead
          rw [hns]
          cases p.doc <;> simp [JMap.get?_insert, JMap.get?]
        | some x =>
          by_cases hx : x = ""
          · refine ⟨none, .absent ?_, by rw [hx]; rfl⟩
            rw [hn]
            unfold protocolHead
            rw [hns]
            cases p.doc <;> simp [hx, JMap.get?_insert, JMap.get?]
          · refine ⟨some x, .present ?_, rfl⟩
            rw [hn]
            unfold protocolHead
            rw [hns]
            cases p.doc <;> simp [hx, JMap.get?_insert]
      refine ⟨?_, _, rfl, c1, c2, c3, fun hwf => ?_⟩
      · obtain ⟨ns, c3, -⟩ := c3
        refine .mk c1 c3 c2 g1 (validTypes_of fun j hj => a1 j (List.mem_filter.1 hj).1) ?_ g2 ?_ ?_
        · intro s hs
          have := (List.mem_filter.1 hs).2
          simp [Json.isStr] at this
        · exact (hperm.map Prod.fst).nodup_iff.2 (by rw [a3]; exact hdist)
        · exact fun kv hkv => a2 kv (hperm.mem_iff.1 hkv)
      · show SameMap p.props (collectExtra (protocolObj p types msgs) _)
        rw [protocolObj_eq, collectExtra_insert_known (by simp), collectExtra_insert_known (by simp)]
        refine collectExtra_insertAll ?_ hwf hp
        unfold protocolHead
        cases p.doc <;> cases p.ns <;> simp only [] <;> (try split) <;>
          repeat (first | exact keysIn_nil _ | refine KeysIn.insert ?_ (by simp) _)

end Avdl
