import Verif.Spec.AvroJson
import Verif.Lemmas.RoundTrip
import Verif.Lemmas.ReaderMeans
/-! # Importing JSON documents -/

namespace Avdl
open Spec

theorem getStr_some {obj : JMap} {k s : String} (h : obj.get? k = some (.str s)) :
    getStr obj k = some s := by simp [getStr, h, Json.asStr]

theorem getStr_none {obj : JMap} {k : String} (h : obj.get? k = none) : getStr obj k = none := by
  simp [getStr, h]

theorem Spec.OptText.eq {obj : JMap} {k : String} {d : Option String} (h : OptText obj k d) :
    getStr obj k = d := by
  cases h with
  | absent h => exact getStr_none h
  | present h => exact getStr_some h

theorem filterMap_asStr (l : List String) : (l.map Json.str).filterMap Json.asStr = l := by
  induction l with
  | nil => rfl
  | cons s l ih => simp only [List.map_cons, List.filterMap_cons, Json.asStr, ih]

theorem Spec.OptTexts.eq {obj : JMap} {k : String} {l : List String} (h : OptTexts obj k l) :
    extractStringArray (JMap.get? obj k) = l := by
  cases h with
  | absent h => rw [h]; rfl
  | present h => rw [h]; exact filterMap_asStr l

theorem splitFullName_dotted {pre name : String} (h : DotFree name) :
    splitFullName (pre ++ "." ++ name) = (name, some pre) := by
  unfold splitFullName
  rw [String.toList_append, String.toList_append, dot_toList, List.append_assoc,
    show ['.'] ++ name.toList = '.' :: name.toList from rfl, rsplitDot_append h]
  simp

theorem not_dotFree_dotted (pre name : String) : ¬ DotFree (pre ++ "." ++ name) := by
  simp [DotFree, String.toList_append, dot_toList]

theorem Spec.DocName.eq {encl : Option String} {obj : JMap} {name : String} {ns : Option String}
    (h : DocName encl obj name ns)
    (hr : ∀ raw, obj.get? "name" = some (.str raw) → ¬ DotFree raw → obj.get? "namespace" = none) :
    namedTypeName obj encl = some (name, ns) := by
  unfold namedTypeName
  cases h with
  | dotted h1 h2 =>
    rw [getStr_some h1]
    simp only [splitFullName_dotted h2]
    rw [getStr_none (hr _ h1 (not_dotFree_dotted _ _))]
    rfl
  | given h1 h2 h3 =>
    rw [getStr_some h1]
    simp only [splitFullName_dotfree h2]
    rw [getStr_some h3]
    rfl
  | inherited h1 h2 h3 =>
    rw [getStr_some h1]
    simp only [splitFullName_dotfree h2]
    rw [getStr_none h3]
    rfl

theorem Spec.DocName.ns {encl : Option String} {obj : JMap} {name : String} {ns : Option String}
    (h : DocName encl obj name ns) : ns.or encl = ns := by
  cases h with
  | dotted | given => rfl
  | inherited => cases encl <;> rfl

theorem stringToSchema_names {encl : Option String} {s name : String} {ns : Option String}
    (hp : s ∉ primitives) (h : ReferenceName encl s name ns) :
    stringToSchema s encl = .ref name ns [] none := by
  unfold stringToSchema
  rw [ofStr?_none hp]
  cases h with
  | dotted h1 h2 => rw [h1, splitFullName_dotted h2]
  | plain h => rw [splitFullName_dotfree h]

theorem Spec.OrderDoc.eq {obj : JMap} {o : Option FieldOrder} (h : OrderDoc obj o) :
    parseOrder obj = o := by
  unfold parseOrder
  cases h with
  | absent h => rw [getStr_none h]
  | ascending h => rw [getStr_some h]; rfl
  | descending h => rw [getStr_some h]; rfl
  | ignore h => rw [getStr_some h]; rfl

theorem get?_mem {m : JMap} {k : String} {v : Json} (h : m.get? k = some v) : (k, v) ∈ m := by
  induction m with
  | nil => cases h
  | cons kv m ih =>
    obtain ⟨k', v'⟩ := kv
    simp only [JMap.get?] at h
    split at h
    · rename_i e; subst e; injection h with h; subst h; exact List.mem_cons_self ..
    · exact List.mem_cons_of_mem _ (ih h)

theorem Spec.Regular.entry {obj : JMap} {k : String} {j : Json} (h : Regular (.obj obj))
    (hk : obj.get? k = some j) : Regular j := by
  cases h with
  | obj _ h => exact h _ (get?_mem hk)

theorem Spec.Regular.object {obj : JMap} (h : Regular (.obj obj)) : RegularObject obj := by
  cases h with | obj h _ => exact h

theorem Spec.LogicalDoc.names {obj : JMap} {p : Prim} {lt : LogicalType} (h : LogicalDoc obj p lt) :
    obj.get? "logicalType" = some (.str lt.name) ∧ lt.base = p := by
  cases h with
  | simple h1 h2 => exact ⟨h1, h2⟩
  | decimal h1 h2 => exact ⟨h1, h2.symm⟩

theorem asU64_nat {n : Nat} (h : n < 2 ^ 32) : Json.asU64 (.num (.int n)) = some n := by
  simp only [Json.asU64]
  rw [if_pos (by omega)]
  rfl

theorem toU32?_of_lt {n : Nat} (h : n < 2 ^ 32) : toU32? n = some n := by simp [toU32?, h]

theorem otherMembers_extra {obj : JMap} {a b : List String} (h : ∀ k ∈ b, k ∉ a → obj.get? k = none)
    (hab : ∀ k ∈ a, k ∈ b) : collectExtra obj b = otherMembers obj a := by
  unfold collectExtra otherMembers
  apply List.filter_congr
  intro kv hkv
  congr 1
  rw [Bool.eq_iff_iff]
  simp only [List.contains_eq_mem, decide_eq_true_eq]
  refine ⟨fun hb => ?_, hab _⟩
  by_cases ha : kv.1 ∈ a
  · exact ha
  · exfalso
    have := h _ hb ha
    revert this hkv
    generalize hk : kv.1 = k
    intro hkv this
    clear h hb ha hab
    induction obj with
    | nil => cases hkv
    | cons x obj ih =>
      obtain ⟨k', v'⟩ := x
      simp only [JMap.get?] at this
      split at this
      · cases this
      · rename_i hne
        rcases List.mem_cons.mp hkv with e | hkv
        · rw [e] at hk; exact hne hk
        · exact ih hkv this

theorem parseLogicalType_simple {lt : LogicalType} (h : ∀ a b, lt ≠ .decimal a b)
    (p s : Option Nat) : parseLogicalType lt.name p s = some lt := by
  cases lt with
  | decimal a b => exact absurd rfl (h a b)
  | _ => rfl

theorem parseLogicalType_known {n : String} {p s : Option Nat} {lt : LogicalType}
    (h : parseLogicalType n p s = some lt) : n = lt.name := by
  unfold parseLogicalType at h
  repeat' split at h
  all_goals first
    | (injection h with h; subst h; simpa [LogicalType.name])
    | cases h

theorem name_mem_table (lt : LogicalType) : lt.name ∈ logicalBases.map Prod.fst := by
  cases lt <;> simp [LogicalType.name, logicalBases]

/-- A logical type. -/
theorem parseAnnotatedPrimitive_logical {obj : JMap} {p : Prim} {lt : LogicalType}
    (h : LogicalDoc obj p lt)
    (hr : ∀ n, obj.get? "logicalType" = some (.str n) → n ∈ logicalBases.map Prod.fst →
      n ≠ "decimal" → obj.get? "precision" = none ∧ obj.get? "scale" = none) :
    parseAnnotatedPrimitive obj p = .ok (.logical lt (otherMembers obj ("type" :: Spec.logicalKeys lt))) := by
  unfold parseAnnotatedPrimitive
  cases h with
  | simple h1 h2 h3 =>
    rw [getStr_some h1]
    simp only [parseLogicalType_simple h3]
    have hn : lt.name ≠ "decimal" := by
      cases lt with
      | decimal a b => exact absurd rfl (h3 a b)
      | _ => decide
    obtain ⟨g1, g2⟩ := hr _ h1 (name_mem_table lt) hn
    have hk : Spec.logicalKeys lt = ["logicalType"] := by
      cases lt with
      | decimal a b => exact absurd rfl (h3 a b)
      | _ => rfl
    have he : collectExtra obj logicalKeys = otherMembers obj ("type" :: Spec.logicalKeys lt) := by
      rw [hk]
      refine otherMembers_extra (fun k hk hk' => ?_) (by decide)
      simp only [logicalKeys, List.mem_cons, List.not_mem_nil, or_false, not_or] at hk hk'
      rcases hk with rfl | rfl | rfl | rfl
      · exact absurd rfl hk'.1
      · exact absurd rfl hk'.2
      · exact g1
      · exact g2
    rw [he]
  | @decimal precision scale h1 h2 h3 h4 h5 h6 h7 =>
    rw [getStr_some h1]
    have e1 : (getU64 obj "precision").bind toU32? = some precision := by
      rw [getU64, h3, Option.bind_some, asU64_nat h5, Option.bind_some, toU32?_of_lt h5]
    have e2 : ((getU64 obj "scale").bind toU32?).getD 0 = scale := by
      rcases h6 with ⟨h6, rfl⟩ | h6
      · rw [getU64, h6]; rfl
      · have : scale < 2 ^ 32 := Nat.lt_of_le_of_lt h7 h5
        rw [getU64, h6, Option.bind_some, asU64_nat this, Option.bind_some, toU32?_of_lt this]
        rfl
    simp only [e1]
    have e3 : parseLogicalType "decimal" (some precision) ((getU64 obj "scale").bind toU32?) =
        some (.decimal precision scale) := by rw [← e2]; rfl
    rw [e3]
    have e4 : ¬ precision < 1 := by omega
    simp only [e4, if_false]
    rfl

/-- A primitive that is no logical type. -/
theorem parseAnnotatedPrimitive_other {obj : JMap} {p : Prim}
    (h : ∀ lt, ¬ LogicalDoc obj p lt)
    (hr : NamesLogical obj.get? → ∃ lt, LogicalDoc obj p lt) :
    parseAnnotatedPrimitive obj p = if otherMembers obj ["type"] = [] then .ok (.prim p)
      else .ok (.annotated p (otherMembers obj ["type"])) := by
  have hn : ¬ NamesLogical obj.get? := fun hn => by
    obtain ⟨lt, hlt⟩ := hr hn
    exact h lt hlt
  have he : collectExtra obj ["type"] = otherMembers obj ["type"] := rfl
  unfold parseAnnotatedPrimitive
  cases hl : getStr obj "logicalType" with
  | none =>
    simp only [he, List.isEmpty_iff]
  | some n =>
    have hl' : obj.get? "logicalType" = some (.str n) := by
      simp only [getStr, Option.bind_eq_some_iff] at hl
      obtain ⟨j, h1, h2⟩ := hl
      cases j <;> simp [Json.asStr] at h2
      rw [h1, h2]
    have hne : otherMembers obj ["type"] ≠ [] := by
      intro e
      have := get?_mem hl'
      have : ("logicalType", Json.str n) ∈ otherMembers obj ["type"] := by
        simp [otherMembers, this]
      rw [e] at this; cases this
    rw [if_neg hne]
    have hp : parseLogicalType n ((getU64 obj "precision").bind toU32?)
        ((getU64 obj "scale").bind toU32?) = none := by
      cases hc : parseLogicalType n ((getU64 obj "precision").bind toU32?)
        ((getU64 obj "scale").bind toU32?) with
      | none => rfl
      | some lt =>
        exfalso
        have e := parseLogicalType_known hc
        subst e
        refine hn ⟨_, hl', name_mem_table lt, fun hd => ?_⟩
        rw [hd] at hc
        simp only [parseLogicalType] at hc
        cases hq : (getU64 obj "precision").bind toU32? with
        | none => rw [hq] at hc; simp at hc
        | some q =>
          simp only [getU64, Option.bind_eq_some_iff] at hq
          obtain ⟨m, ⟨j, h1, h2⟩, h3⟩ := hq
          unfold toU32? at h3
          split at h3
          · injection h3 with h3; subst h3
            refine ⟨m, by assumption, ?_⟩
            rw [h1]
            unfold Json.asU64 at h2
            split at h2
            · split at h2
              · rename_i i hi
                injection h2 with h2
                rw [← h2, Int.toNat_of_nonneg hi.1]
              · cases h2
            · cases h2
          · cases h3
    simp only [hp, he]

theorem jsonToSchema_primitive {encl : Option String} {obj : JMap} {p : Prim}
    (h : obj.get? "type" = some (.str p.asStr)) :
    jsonToSchema encl (.obj obj) = parseAnnotatedPrimitive obj p := by
  simp only [jsonToSchema]
  rw [getStr_some h]
  cases p <;> simp [Prim.asStr, Prim.ofStr?]

theorem getU64_nat {obj : JMap} {k : String} {n : Nat} (h : obj.get? k = some (.num (.int n)))
    (hn : n < 2 ^ 32) : getU64 obj k = some n := by
  rw [getU64, h, Option.bind_some, asU64_nat hn]

theorem parseFixed_doc {encl : Option String} {obj : JMap} {name : String} {ns doc : Option String}
    {size : Nat} {al : List String} (hn : DocName encl obj name ns) (hd : OptText obj "doc" doc)
    (hs : obj.get? "size" = some (.num (.int size))) (hlt : size < 2 ^ 32)
    (ha : OptTexts obj "aliases" al)
    (hr : ∀ raw, obj.get? "name" = some (.str raw) → ¬ DotFree raw → obj.get? "namespace" = none) :
    parseFixed obj encl = .ok (.fixed name ns doc size al
      (otherMembers obj ["type", "name", "namespace", "doc", "size", "aliases"])) := by
  have e' := getU64_nat hs hlt
  unfold parseFixed
  rw [hn.eq hr, hd.eq, ha.eq, e']
  simp only
  rw [toU32?_of_lt hlt]
  rfl

theorem jsonToSchema_fixed {encl : Option String} {obj : JMap}
    (h : obj.get? "type" = some (.str "fixed")) :
    jsonToSchema encl (.obj obj) = parseFixed obj encl := by
  simp only [jsonToSchema]
  rw [getStr_some h]
  rfl

mutual
theorem schemaDoc_import : ∀ {encl : Option String} {j : Json} {s : Schema},
    SchemaDoc encl j s → Regular j → jsonToSchema encl j = .ok s
  | _, _, _, .prim, _ => by simp [jsonToSchema, stringToSchema, ofStr?_asStr]
  | _, _, _, .ref hp h, _ => by simp only [jsonToSchema]; rw [stringToSchema_names hp h]
  | _, _, _, .union h, hr => by
      cases hr with
      | arr hr =>
        simp only [jsonToSchema]
        rw [schemaDocs_import h hr]
  | _, _, _, .record ht hn hd hl hf ha, hr => by
      have hfs := fieldDocs_import hf (by cases hr.entry hl with | arr h => exact h)
      simp only [jsonToSchema]
      rw [getStr_some ht]
      simp only [true_or, if_true]
      rw [hn.eq hr.object.name]
      simp only
      rw [hn.ns, fieldsEntry_some hl]
      simp only [fieldsOfJson]
      rw [hfs, hd.eq, ha.eq]
      rfl
  | _, _, _, .error ht hn hd hl hf ha, hr => by
      have hfs := fieldDocs_import hf (by cases hr.entry hl with | arr h => exact h)
      simp only [jsonToSchema]
      rw [getStr_some ht]
      simp only [or_true, if_true]
      rw [hn.eq hr.object.name]
      simp only
      rw [hn.ns, fieldsEntry_some hl]
      simp only [fieldsOfJson]
      rw [hfs, hd.eq, ha.eq]
      rfl
  | _, _, _, .enum ht hn hd hs hdf ha, hr => by
      simp only [jsonToSchema]
      rw [getStr_some ht]
      simp only [parseEnum, hn.eq hr.object.name, hd.eq, hdf.eq, ha.eq, hs]
      rw [show extractStringArray (some (Json.arr (List.map Json.str _))) = _ from
        filterMap_asStr _]
      rfl
  | _, _, _, .fixed ht hn hd hs hlt ha, hr => by
      rw [jsonToSchema_fixed ht, parseFixed_doc hn hd hs hlt ha hr.object.name]
  | _, _, _, .array ht hi h, hr => by
      simp only [jsonToSchema]
      rw [getStr_some ht]
      simp only [schemaEntry_eq, hi, Option.map_some]
      rw [schemaDoc_import h (hr.entry hi)]
      simp [collectExtra, otherMembers]
  | _, _, _, .map ht hi h, hr => by
      simp only [jsonToSchema]
      rw [getStr_some ht]
      simp only [schemaEntry_eq, hi, Option.map_some]
      rw [schemaDoc_import h (hr.entry hi)]
      simp [collectExtra, otherMembers]
  | _, _, _, .bare (obj := obj) (p := p) ht ho, hr => by
      rw [jsonToSchema_primitive ht, parseAnnotatedPrimitive_other _ (hr.object.logical _ ht), if_pos ho]
      intro lt hlt
      have := get?_mem hlt.names.1
      have : ("logicalType", Json.str lt.name) ∈ otherMembers obj ["type"] := by
        simp [otherMembers, this]
      rw [ho] at this; cases this
  | _, _, _, .annotated ht ho hl, hr => by
      rw [jsonToSchema_primitive ht, parseAnnotatedPrimitive_other hl (hr.object.logical _ ht), if_neg ho]
  | _, _, _, .logical ht hl, hr => by
      rw [jsonToSchema_primitive ht, parseAnnotatedPrimitive_logical hl hr.object.numbers]
theorem schemaDocs_import : ∀ {encl : Option String} {js : List Json} {ss : List Schema},
    SchemaDocs encl js ss → (∀ j ∈ js, Regular j) → jsonToSchemaList encl js = .ok ss
  | _, _, _, .nil, _ => by simp only [jsonToSchemaList]
  | _, _, _, .cons h1 h2, hr => by
      simp only [jsonToSchemaList]
      rw [schemaDoc_import h1 (hr _ (List.mem_cons_self ..)),
        schemaDocs_import h2 fun j hj => hr j (List.mem_cons_of_mem _ hj)]
theorem fieldDocs_import : ∀ {encl : Option String} {js : List Json} {fs : List Field},
    FieldDocs encl js fs → (∀ j ∈ js, Regular j) → jsonToFieldList encl js = .ok fs
  | _, _, _, .nil, _ => by simp only [jsonToFieldList]
  | _, _, _, .cons hn ht h hd ho ha h2, hr => by
      have hr1 := hr _ (List.mem_cons_self ..)
      simp only [jsonToFieldList, jsonToField]
      rw [getStr_some hn]
      simp only [schemaEntry_eq, ht, Option.map_some]
      rw [schemaDoc_import h (hr1.entry ht),
        fieldDocs_import h2 fun j hj => hr j (List.mem_cons_of_mem _ hj)]
      simp only [fieldOf, hd.eq, ho.eq, ha.eq]
      rfl
end

theorem messageDoc_import {encl : Option String} {j : Json} {m : Message} (h : MessageDoc encl j m)
    (hr : Regular j) : jsonToMessage encl j = .ok m := by
  cases h with
  | mk hd hq hf hp hs he ho =>
    have hfs := fieldDocs_import hf (by cases hr.entry hq with | arr h => exact h)
    have hrs := schemaDoc_import hs (hr.entry hp)
    simp only [jsonToMessage, hq, fieldsOfJson, hfs, schemaEntry_eq, hp, Option.map_some, hrs]
    have ho' : ∀ obj : JMap, ∀ b, OneWayDoc obj b →
        ((JMap.get? obj "one-way").bind Json.asBool).getD false = b := by
      intro obj b h
      cases h with
      | absent h => simp [h]
      | present h => simp [h, Json.asBool]
    rw [hd.eq, ho' _ _ ho]
    cases he with
    | absent he => rw [he]; rfl
    | present he hl =>
      rw [he]
      simp only
      rw [schemaDocs_import hl (by cases hr.entry he with | arr h => exact h)]
      rfl

theorem messageDocs_import {encl : Option String} {js : JMap} {ms : List (String × Message)}
    (h : MessageDocs encl js ms) (hr : ∀ kv ∈ js, Regular kv.2) :
    importMessages encl js = .ok ms := by
  induction h with
  | nil => rfl
  | cons h1 _ ih =>
    simp only [importMessages]
    rw [messageDoc_import h1 (hr _ (List.mem_cons_self ..)),
      ih fun kv hkv => hr kv (List.mem_cons_of_mem _ hkv)]

theorem importTypes_docs [CharTables] {encl : Option String} {js : List Json} {ss : List Schema}
    (h : SchemaDocs encl js ss) (hr : ∀ j ∈ js, Regular j) : ∀ r,
    importTypes encl js r = .ok (ss.foldl flattenAndRegister r) := by
  induction js generalizing ss with
  | nil => cases h; intro r; rfl
  | cons j js ih =>
    cases h with
    | cons h1 h2 =>
      intro r
      simp only [importTypes]
      rw [schemaDoc_import h1 (hr _ (List.mem_cons_self ..))]
      simp only [ih h2 fun j hj => hr j (List.mem_cons_of_mem _ hj)]
      rfl

end Avdl
