import Verif.Lemmas.RoundTrip
/-!
# Export followed by import: schemas
-/

namespace Avdl

open Spec

/-! ### Primitive types with annotations and logical types -/

theorem import_primObj {obj : JMap} {p : Prim} (h : getStr obj "type" = some p.asStr)
    (d : Option String) : jsonToSchema d (.obj obj) = parseAnnotatedPrimitive obj p := by
  unfold jsonToSchema
  rw [h]
  cases p <;> simp [Prim.asStr, Prim.ofStr?]

theorem parseLogicalType_names {n : String} {pr sc : Option Nat} {lt : LogicalType}
    (h : parseLogicalType n pr sc = some lt) :
    n ∈ logicalBases.map Prod.fst ∧ (n = "decimal" → ∃ p, pr = some p) := by
  have hdec : n ∈ logicalBases.map Prod.fst ∨ parseLogicalType n pr sc = none := by
    unfold parseLogicalType
    by_cases hm : n ∈ logicalBases.map Prod.fst
    · exact .inl hm
    · right
      simp only [logicalBases, List.map_cons, List.map_nil, List.mem_cons, List.not_mem_nil,
        or_false, not_or] at hm
      simp [hm]
  refine ⟨?_, ?_⟩
  · rcases hdec with hd | hd
    · exact hd
    · rw [h] at hd; cases hd
  · rintro rfl
    cases pr with
    | none => simp [parseLogicalType] at h
    | some p => exact ⟨p, rfl⟩

theorem asU64_nat {p : Nat} (hp : p < 2 ^ 32) : Json.asU64 (.num (.int p)) = some p := by
  have h1 : (p : Int) < 2 ^ 64 := Int.lt_trans (Int.ofNat_lt.2 hp) (by decide)
  unfold Json.asU64
  simp only
  rw [if_pos ⟨Int.natCast_nonneg p, h1⟩, Int.toNat_natCast]

theorem getU64_bind {m : JMap} {k : String} {p : Nat} (h : (getU64 m k).bind toU32? = some p) :
    p < 2 ^ 32 ∧ m.get? k = some (.num (.int p)) := by
  unfold getU64 at h
  cases hg : m.get? k with
  | none => rw [hg] at h; simp at h
  | some j =>
    rw [hg] at h
    simp only [Option.bind_some] at h
    cases j with
    | num x =>
      cases x with
      | int i =>
        simp only [Json.asU64] at h
        split at h
        · rename_i hi
          simp only [Option.bind_some, toU32?] at h
          split at h
          · simp only [Option.some.injEq] at h
            subst h
            refine ⟨‹_›, ?_⟩
            congr 3
            omega
          · cases h
        · cases h
      | float => simp [Json.asU64] at h
    | _ => simp [Json.asU64] at h

theorem toU32?_lt {p : Nat} (hp : p < 2 ^ 32) : toU32? p = some p := by
  unfold toU32?
  exact if_pos hp

theorem getU64_int {m : JMap} {k : String} {p : Nat} (hp : p < 2 ^ 32)
    (h : m.get? k = some (.num (.int p))) : (getU64 m k).bind toU32? = some p := by
  unfold getU64
  rw [h, Option.bind_some, asU64_nat hp, Option.bind_some, toU32?_lt hp]

theorem get?_insertAll_wf {m : JMap} {ps : Props} (hwf : ps.Wf) {k : String} (h : m.get? k = none) :
    (m.insertAll ps).get? k = ps.get? k := by
  rw [JMap.get?_insertAll m ps hwf, h]
  unfold Props.get?
  cases JMap.get? ps k <;> rfl

theorem import_annotated {k : Prim} {ps : Props} (hav : ps.Avoids ["type"])
    (hin : InNode (.annotated k ps)) (d : Option String) :
    ∃ s', jsonToSchema d (.obj ((JMap.insert "type" (.str k.asStr) []).insertAll ps)) = .ok s' ∧
      Same (.annotated k ps) (outline s') ∧ definitions s' = [] := by
  obtain ⟨hwf, hnl⟩ := hin
  have hkeys : KeysIn ["type"] (JMap.insert "type" (.str k.asStr) []) :=
    (keysIn_nil _).insert (by simp) _
  have hx := collectExtra_insertAll hkeys hwf hav
  have hty : getStr ((JMap.insert "type" (.str k.asStr) []).insertAll ps) "type" = some k.asStr := by
    unfold getStr
    rw [get?_insertAll_avoid hav (by simp), JMap.get?_insert_self]
    rfl
  have hget : ∀ key, key ≠ "type" →
      ((JMap.insert "type" (.str k.asStr) []).insertAll ps).get? key = ps.get? key := fun key hk =>
    get?_insertAll_wf hwf (get?_none_of_keysIn hkeys (by simpa using hk))
  rw [import_primObj hty]
  unfold parseAnnotatedPrimitive
  cases hl : getStr ((JMap.insert "type" (.str k.asStr) []).insertAll ps) "logicalType" with
  | none =>
    simp only
    split
    · rename_i he
      rw [List.isEmpty_iff.1 he] at hx
      have := SameMap.nil_right hx
      subst this
      exact ⟨_, rfl, .bare, rfl⟩
    · exact ⟨_, rfl, .annotated hx, rfl⟩
  | some n =>
    simp only
    cases hp : parseLogicalType n
        ((getU64 ((JMap.insert "type" (.str k.asStr) []).insertAll ps) "precision").bind toU32?)
        ((getU64 ((JMap.insert "type" (.str k.asStr) []).insertAll ps) "scale").bind toU32?) with
    | none => exact ⟨_, rfl, .annotated hx, rfl⟩
    | some lt =>
      exfalso
      obtain ⟨h1, h2⟩ := parseLogicalType_names hp
      refine hnl ⟨n, ?_, h1, fun hd => ?_⟩
      · unfold getStr at hl
        rw [hget _ (by decide)] at hl
        cases hg : ps.get? "logicalType" with
        | none => rw [hg] at hl; simp at hl
        | some j =>
          rw [hg] at hl
          cases j <;> simp [Json.asStr] at hl
          rw [hl]
      · obtain ⟨p, hp'⟩ := h2 hd
        have := getU64_bind hp'
        rw [hget _ (by decide)] at this
        exact ⟨p, this⟩

/-- The object written for a logical type before its annotations are added. -/
def logicalBase (lt : LogicalType) : JMap :=
  let obj := JMap.insert "logicalType" (.str lt.name) (JMap.insert "type" (.str lt.base.asStr) [])
  match lt with
  | .decimal p s =>
      JMap.insert "scale" (.num (.int s)) (JMap.insert "precision" (.num (.int p)) obj)
  | _ => obj

theorem import_logical {lt : LogicalType} {ps : Props} (hav : ps.Avoids ["type"])
    (hin : InNode (.logical lt ps)) (d : Option String) :
    ∃ s', jsonToSchema d (.obj (logicalObj lt ps)) = .ok s' ∧
      Same (.logical lt ps) (outline s') ∧ definitions s' = [] := by
  obtain ⟨hwf, hav2, hdec⟩ := hin
  have hobj : logicalObj lt ps = (logicalBase lt).insertAll ps := rfl
  have hav' : ps.Avoids logicalKeys := by
    intro kv hkv hm
    simp only [logicalKeys, List.mem_cons, List.not_mem_nil, or_false] at hm
    rcases hm with hm | hm
    · exact hav kv hkv (by simp [hm])
    · exact hav2 kv hkv (by simpa using hm)
  have hkeys : KeysIn logicalKeys (logicalBase lt) := by
    unfold logicalBase
    cases lt <;> simp only <;>
      repeat (first | exact keysIn_nil _ | refine KeysIn.insert ?_ (by simp [logicalKeys]) _)
  have hx := collectExtra_insertAll hkeys hwf hav'
  have hget : ∀ key ∈ logicalKeys, (logicalObj lt ps).get? key = (logicalBase lt).get? key :=
    fun key hk => by rw [hobj]; exact get?_insertAll_avoid hav' hk
  have hty : getStr (logicalObj lt ps) "type" = some lt.base.asStr := by
    unfold getStr
    rw [hget _ (by simp [logicalKeys])]
    cases lt <;> simp [logicalBase, JMap.get?_insert, Json.asStr]
  have hlt : getStr (logicalObj lt ps) "logicalType" = some lt.name := by
    unfold getStr
    rw [hget _ (by simp [logicalKeys])]
    cases lt <;> simp [logicalBase, JMap.get?_insert, Json.asStr]
  rw [import_primObj hty]
  unfold parseAnnotatedPrimitive
  rw [hlt]
  refine ⟨.logical lt (collectExtra (logicalObj lt ps) logicalKeys), ?_, ?_, rfl⟩
  · cases lt with
    | decimal p s =>
      obtain ⟨h1, h2, h3⟩ := hdec p s rfl
      have hp : (getU64 (logicalObj (.decimal p s) ps) "precision").bind toU32? = some p := by
        apply getU64_int h2
        rw [hget _ (by simp [logicalKeys])]
        simp [logicalBase, JMap.get?_insert]
      have hs : (getU64 (logicalObj (.decimal p s) ps) "scale").bind toU32? = some s := by
        apply getU64_int h3
        rw [hget _ (by simp [logicalKeys])]
        simp [logicalBase, JMap.get?_insert]
      have : ¬ p < 1 := by omega
      simp [hp, hs, LogicalType.name, parseLogicalType, this]
    | _ => simp [LogicalType.name, parseLogicalType]
  · simp only [outline]
    exact .logical (by rw [hobj]; exact hx)

/-! ### Objects of the other types -/

theorem import_array {obj : JMap} {d : Option String} {j : Json} {s : Schema}
    (ht : getStr obj "type" = some "array") (hi : obj.get? "items" = some j)
    (hs : jsonToSchema d j = .ok s) :
    jsonToSchema d (.obj obj) = .ok (.array s (collectExtra obj ["type", "items"])) := by
  unfold jsonToSchema
  rw [ht]
  simp [schemaEntry_eq, hi, hs]

theorem import_map {obj : JMap} {d : Option String} {j : Json} {s : Schema}
    (ht : getStr obj "type" = some "map") (hi : obj.get? "values" = some j)
    (hs : jsonToSchema d j = .ok s) :
    jsonToSchema d (.obj obj) = .ok (.map s (collectExtra obj ["type", "values"])) := by
  unfold jsonToSchema
  rw [ht]
  simp [schemaEntry_eq, hi, hs]

theorem import_record {obj : JMap} {d : Option String} {er : Bool} {n : String}
    {ns : Option String} {fj : List Json} {fs : List Field}
    (ht : getStr obj "type" = some (if er then "error" else "record"))
    (hn : namedTypeName obj d = some (n, ns)) (hf : obj.get? "fields" = some (.arr fj))
    (hfs : jsonToFieldList (ns.or d) fj = .ok fs) :
    jsonToSchema d (.obj obj) = .ok (.record n ns (getStr obj "doc") fs er
      (extractStringArray (JMap.get? obj "aliases")) (collectExtra obj recordKeys)) := by
  unfold jsonToSchema
  rw [ht]
  cases er <;> simp [hn, fieldsEntry_some hf, fieldsOfJson, hfs]

theorem import_enum {obj : JMap} {d : Option String} (ht : getStr obj "type" = some "enum") :
    jsonToSchema d (.obj obj) = parseEnum obj d := by
  unfold jsonToSchema
  rw [ht]
  simp

theorem import_fixed {obj : JMap} {d : Option String} (ht : getStr obj "type" = some "fixed") :
    jsonToSchema d (.obj obj) = parseFixed obj d := by
  unfold jsonToSchema
  rw [ht]
  simp

/-! ### The induction -/

theorem named_fullName {s : Schema} (h : s.IsNamed) :
    ∃ n, s.name? = some n ∧ s.fullName? = some (makeFullName n s.nsOf) := by
  cases s <;> first | exact ⟨_, rfl, rfl⟩ | cases h

theorem named_dotFree {s : Schema} {known : String → Prop} {e n : String} (h : s.IsNamed)
    (hok : s.OutOk known e) (hn : s.name? = some n) : DotFree n := by
  cases s <;> first
    | (cases h; done)
    | (simp only [Schema.name?, Option.some.injEq] at hn; subst hn
       simp only [Schema.OutOk, Schema.Everywhere, OutNode, RefOk] at hok
       first | exact hok.1.1.1 | exact hok.1.1)

/-- The annotations in the definitions of the table satisfy the conditions. -/
def LookupIn (lk : Lookup) : Prop :=
  ∀ full t, lk.get? full = some t → t.flatDef = true ∧
    ∃ e, t.Everywhere (fun _ => InNode) InField e

theorem ser_import (lk : Lookup) (hlk : LookupOk lk) (hin : LookupIn lk) (n : Nat) :
    (∀ s encl d K j K' e, s.noDefs = true → s.OutOk lk.Has (nsStr encl) →
      s.Everywhere (fun _ => InNode) InField e → nsStr d = nsStr encl →
      schemaToJson lk n s encl K = some (j, K') →
      ∃ s', jsonToSchema d j = .ok s' ∧ Same s (outline s') ∧ Brought lk (definitions s') K K') ∧
    (∀ s encl d K j K' full, s.IsNamed → lk.get? full = some s →
      (s.nsOf = none → nsStr encl = "") → full ∉ K → nsStr d = nsStr encl →
      schemaToJson lk n s encl K = some (j, K') →
      ∃ s' nm ns', jsonToSchema d j = .ok s' ∧ s.name? = some nm ∧
        outline s' = .ref nm ns' [] none ∧ nsStr ns' = nsStr s.nsOf ∧
        Brought lk (definitions s') K K') := by
  induction n with
  | zero => constructor <;> intros <;> simp [schemaToJson] at *
  | succ n ih =>
    refine ⟨?_, ?_⟩
    · intro s encl d K j K' e hnd hok hi hd h
      cases s with
      | prim p =>
        simp only [schemaToJson, Option.some.injEq, Prod.mk.injEq] at h
        obtain ⟨rfl, rfl⟩ := h
        refine ⟨.prim p, ?_, ?_, ?_⟩
        · simp [jsonToSchema, stringToSchema, ofStr?_asStr]
        · exact .prim
        · exact .nil ..
      | record => simp [Schema.noDefs] at hnd
      | enum => simp [Schema.noDefs] at hnd
      | fixed => simp [Schema.noDefs] at hnd
      | annotated k ps =>
        simp only [schemaToJson, Option.some.injEq, Prod.mk.injEq] at h
        obtain ⟨rfl, rfl⟩ := h
        simp only [Schema.OutOk, Schema.Everywhere, OutNode] at hok hi
        obtain ⟨s', h1, h2, h3⟩ := import_annotated hok hi d
        exact ⟨s', h1, h2, by rw [h3]; exact .nil ..⟩
      | logical lt ps =>
        simp only [schemaToJson, Option.some.injEq, Prod.mk.injEq] at h
        obtain ⟨rfl, rfl⟩ := h
        simp only [Schema.OutOk, Schema.Everywhere, OutNode] at hok hi
        obtain ⟨s', h1, h2, h3⟩ := import_logical hok hi d
        exact ⟨s', h1, h2, by rw [h3]; exact .nil ..⟩
      | array i ps =>
        simp only [schemaToJson] at h
        simp only [Schema.OutOk, Schema.Everywhere, OutNode, InNode, Schema.noDefs] at hok hi hnd
        cases hs : schemaToJson lk n i encl K with
        | none => rw [hs] at h; cases h
        | some r =>
          obtain ⟨j1, K1⟩ := r
          rw [hs] at h
          simp only [Option.some.injEq, Prod.mk.injEq] at h
          obtain ⟨rfl, rfl⟩ := h
          obtain ⟨i', h1, h2, h3⟩ := ih.1 i encl d K j1 K1 e hnd hok.2 hi.2 hd hs
          have hk : KeysIn ["type", "items"]
              (JMap.insert "items" j1 (JMap.insert "type" (.str "array") [])) :=
            ((keysIn_nil _).insert (by simp) _).insert (by simp) _
          refine ⟨_, import_array ?_ ?_ h1, ?_, ?_⟩
          · unfold getStr
            rw [get?_insertAll_avoid hok.1 (by simp)]
            simp [JMap.get?_insert, Json.asStr]
          · rw [get?_insertAll_avoid hok.1 (by simp)]
            simp [JMap.get?_insert]
          · simp only [outline]
            exact .array h2 (collectExtra_insertAll hk hi.1 hok.1)
          · simpa only [definitions] using h3
      | map i ps =>
        simp only [schemaToJson] at h
        simp only [Schema.OutOk, Schema.Everywhere, OutNode, InNode, Schema.noDefs] at hok hi hnd
        cases hs : schemaToJson lk n i encl K with
        | none => rw [hs] at h; cases h
        | some r =>
          obtain ⟨j1, K1⟩ := r
          rw [hs] at h
          simp only [Option.some.injEq, Prod.mk.injEq] at h
          obtain ⟨rfl, rfl⟩ := h
          obtain ⟨i', h1, h2, h3⟩ := ih.1 i encl d K j1 K1 e hnd hok.2 hi.2 hd hs
          have hk : KeysIn ["type", "values"]
              (JMap.insert "values" j1 (JMap.insert "type" (.str "map") [])) :=
            ((keysIn_nil _).insert (by simp) _).insert (by simp) _
          refine ⟨_, import_map ?_ ?_ h1, ?_, ?_⟩
          · unfold getStr
            rw [get?_insertAll_avoid hok.1 (by simp)]
            simp [JMap.get?_insert, Json.asStr]
          · rw [get?_insertAll_avoid hok.1 (by simp)]
            simp [JMap.get?_insert]
          · simp only [outline]
            exact .map h2 (collectExtra_insertAll hk hi.1 hok.1)
          · simpa only [definitions] using h3
      | union ts b =>
        simp only [schemaToJson] at h
        simp only [Schema.OutOk, Schema.Everywhere, OutNode, InNode, Schema.noDefs] at hok hi hnd
        cases hs : mapAccum (fun s k => schemaToJson lk n s encl k) ts K with
        | none => rw [hs] at h; cases h
        | some r =>
          obtain ⟨js, K1⟩ := r
          rw [hs] at h
          simp only [Option.some.injEq, Prod.mk.injEq] at h
          obtain ⟨rfl, rfl⟩ := h
          obtain ⟨cs, h1, h2, h3⟩ := mapAccum_import (lk := lk) (imp := jsonToSchema d)
            (R := fun s s' => Same s (outline s')) (D := definitions) (by
              intro a ha K b K' hab
              exact ih.1 a encl d K b K' e ((Schema.noDefsL_iff ts).1 hnd a ha)
                ((Schema.everywhereL_iff ts).1 hok.2 a ha)
                ((Schema.everywhereL_iff ts).1 hi.2 a ha) hd hab) hs
          refine ⟨.union cs false, ?_, ?_, ?_⟩
          · simp only [jsonToSchema, jsonToSchemaList_eq, h1]
          · simp only [outline]
            exact .union (sameList_of_matching h2)
          · simpa only [definitions, definitionsL_eq] using h3
      | ref nm ns ps sp =>
        simp only [Schema.OutOk, Schema.Everywhere, OutNode, InNode] at hok hi
        subst hi
        simp only [schemaToJson] at h
        have known : ∀ {j : Json} {K' : Known},
            some (Json.str (schemaRefName nm ns encl), K) = some (j, K') →
            ∃ s', jsonToSchema d j = .ok s' ∧ Same (.ref nm ns [] sp) (outline s') ∧
              Brought lk (definitions s') K K' := by
          intro j K' h
          simp only [Option.some.injEq, Prod.mk.injEq] at h
          obtain ⟨rfl, rfl⟩ := h
          obtain ⟨ns', h1, h2⟩ := stringToSchema_ref hok.1 hd
          refine ⟨.ref nm ns' [] none, ?_, ?_, .nil ..⟩
          · simp only [jsonToSchema, h1]
          · exact .ref h2.symm ⟨List.Perm.refl _, List.nodup_nil⟩
        by_cases hK : K.contains (makeFullName nm ns) = true
        · rw [if_pos hK] at h
          exact known h
        · rw [if_neg hK] at h
          cases hg : lk.get? (makeFullName nm ns) with
          | none =>
            rw [hg] at h
            exact known h
          | some t =>
            rw [hg] at h
            simp only at h
            obtain ⟨hnamed, hfull, htok⟩ := hlk _ _ hg
            obtain ⟨tn, htn, htf⟩ := named_fullName hnamed
            rw [hfull, Option.some.injEq] at htf
            have hdf := named_dotFree hnamed htok htn
            obtain ⟨hnn, hnsn⟩ := makeFullName_inj hok.1.1 hdf htf
            have h0 : t.nsOf = none → nsStr encl = "" := by
              intro h0
              rw [h0] at hnsn
              exact hok.1.2.2 hnsn
            obtain ⟨s', nm', ns', h1, h2, h3, h4, h5⟩ := ih.2 t encl d K j K' _ hnamed hg h0
              (by simpa using hK) hd h
            rw [htn, Option.some.injEq] at h2
            subst h2
            refine ⟨s', h1, ?_, h5⟩
            rw [h3, hnn]
            exact .ref (by unfold SameNs; rw [h4, hnsn]) ⟨List.Perm.refl _, List.nodup_nil⟩
    · intro s encl d K j K' full hnamed hg h0 hK hd h
      obtain ⟨-, hfull, hok⟩ := hlk _ _ hg
      obtain ⟨hflat, e, hi⟩ := hin _ _ hg
      cases s with
      | prim => cases hnamed
      | annotated => cases hnamed
      | logical => cases hnamed
      | array => cases hnamed
      | map => cases hnamed
      | union => cases hnamed
      | ref => cases hnamed
      | record nm ns doc fs er al ps =>
        simp only [Schema.fullName?, Option.some.injEq] at hfull
        subst hfull
        simp only [schemaToJson] at h
        simp only [Schema.OutOk, Schema.Everywhere, Schema.nsOf, OutNode, InNode] at hok h0 hi
        obtain ⟨⟨⟨hdf, -, -⟩, hps⟩, hfs⟩ := hok
        obtain ⟨⟨hwf, hal⟩, hifs⟩ := hi
        have hinn : innerNs ns (nsStr ns) = nsStr ns := by cases ns <;> rfl
        rw [hinn] at hfs
        cases hpre : namedTypePreamble (if er = true then "error" else "record") nm ns doc K encl with
        | error bare => exact absurd (preamble_error hpre).1 hK
        | ok okv =>
          obtain ⟨obj, K1⟩ := okv
          rw [hpre] at h
          simp only at h
          have hpk := preamble_keys hpre
          obtain ⟨hnot, rfl, htype, hname, hnsp, hdoc⟩ := preamble_ok hpre
          cases hma : mapAccum (fieldToJson fun s k => schemaToJson lk n s (ns.or encl) k) fs
              (makeFullName nm ns :: K) with
          | none => rw [hma] at h; cases h
          | some r =>
            obtain ⟨fj, K2⟩ := r
            rw [hma] at h
            simp only [Option.some.injEq, Prod.mk.injEq] at h
            obtain ⟨rfl, rfl⟩ := h
            have hinner : nsStr (ns.or encl) = nsStr ns := by rw [nsStr_or, innerNs_eq h0]
            have hget : ∀ k ∈ recordKeys, k ≠ "aliases" → k ≠ "fields" →
                (finishNamedType (JMap.insert "fields" (.arr fj) obj) ps al ns).get? k =
                  obj.get? k := by
              intro k hk hk' hk''
              rw [finish_get? hps hk hk', JMap.get?_insert_ne _ _ hk'']
            obtain ⟨ns', hnm', hns'⟩ := namedTypeName_export
              (obj := finishNamedType (JMap.insert "fields" (.arr fj) obj) ps al ns) (d := d) hdf
              (by rw [hget _ (by simp [recordKeys]) (by decide) (by decide)]; exact hname)
              (by rw [hget _ (by simp [recordKeys]) (by decide) (by decide)]; exact hnsp) h0 hd
            have hd' : nsStr (ns'.or d) = nsStr (ns.or encl) := by
              rw [hinner]
              cases ns' with
              | some x => exact hns'
              | none =>
                simp only [Option.none_or]
                rw [hd, ← hns']
                cases ns with
                | none => simpa [nsStr] using h0 rfl
                | some y =>
                  -- `ns' = none` means that neither an entry nor a default was found
                  have hdn : d = none := by
                    unfold namedTypeName at hnm'
                    simp only [getStr] at hnm'
                    cases hd0 : d with
                    | none => rfl
                    | some z =>
                      exfalso
                      rw [hd0] at hnm'
                      revert hnm'
                      split
                      · simp
                      · simp only [Option.some.injEq, Prod.mk.injEq, Option.or_some]
                        rintro ⟨-, h⟩
                        cases h
                  rw [hdn] at hd
                  exact hd.symm
            obtain ⟨fs', h1, h2, h3⟩ := mapAccum_import (lk := lk) (imp := jsonToField (ns'.or d))
              (R := fun f f' => SameField f (withType f' (outline f'.schema)))
              (D := fun f' => definitions f'.schema) (by
                intro f hf K b K' hfb
                cases hs : schemaToJson lk n f.schema (ns.or encl) K with
                | none => simp [fieldToJson, hs] at hfb
                | some r =>
                  obtain ⟨j, K1⟩ := r
                  simp only [fieldToJson, hs, Option.some.injEq, Prod.mk.injEq] at hfb
                  obtain ⟨rfl, rfl⟩ := hfb
                  have hf' := (Schema.everywhereF_iff fs).mp hfs f hf
                  have hif' := (Schema.everywhereF_iff fs).mp hifs f hf
                  obtain ⟨s', g1, g2, g3⟩ := ih.1 f.schema (ns.or encl) (ns'.or d) K j K1 _
                    ((Schema.noDefsF_iff fs).1 hflat f hf) (by rw [hinner]; exact hf'.2) hif'.2
                    hd' hs
                  obtain ⟨f', k1, k2, k3⟩ := jsonToField_export hf'.1 hif'.1 g1 g2
                  exact ⟨f', k1, k3, by rw [k2]; exact g3⟩) hma
            have hrec := import_record (d := d) (er := er) (n := nm) (ns := ns') (fj := fj) (fs := fs')
              (obj := finishNamedType (JMap.insert "fields" (.arr fj) obj) ps al ns)
              (by
                unfold getStr
                rw [hget _ (by simp [recordKeys]) (by decide) (by decide), htype]
                cases er <;> rfl) hnm'
              (by rw [finish_get? hps (by simp) (by decide), JMap.get?_insert_self])
              (by rw [jsonToFieldList_eq]; exact h1)
            refine ⟨_, nm, ns', hrec, rfl, rfl, hns', ?_⟩
            simp only [definitions, definitionsF_eq]
            refine Brought.snoc h3 ?_ hg ?_
            · simp only [Schema.fullName?]
              rw [makeFullName_nsStr nm ns', hns', ← makeFullName_nsStr]
            · simp only [outlineDef]
              rw [getStr_of (o := doc) (by
                rw [hget _ (by simp [recordKeys]) (by decide) (by decide)]; exact hdoc)]
              refine .record hns'.symm (matching_map h2) ?_ ?_
              · rw [finish_aliases (known := recordKeys) (by
                  rw [JMap.get?_insert_ne _ _ (by decide)]
                  exact get?_none_of_keysIn hpk (by simp)) hps (by simp [recordKeys])]
                exact sameAliases_export _ hal
              · exact finish_extra ((hpk.mono (by simp [recordKeys])).insert
                  (by simp [recordKeys]) _) hwf hps (by simp [recordKeys])
      | enum nm ns doc sy df al ps =>
        simp only [Schema.fullName?, Option.some.injEq] at hfull
        subst hfull
        simp only [schemaToJson] at h
        simp only [Schema.OutOk, Schema.Everywhere, Schema.nsOf, OutNode, InNode] at hok h0 hi
        obtain ⟨⟨hdf, -, -⟩, hps⟩ := hok
        obtain ⟨hwf, hal⟩ := hi
        cases hpre : namedTypePreamble "enum" nm ns doc K encl with
        | error bare => exact absurd (preamble_error hpre).1 hK
        | ok okv =>
          obtain ⟨obj, K1⟩ := okv
          rw [hpre] at h
          simp only [Option.some.injEq, Prod.mk.injEq] at h
          have hpk := preamble_keys hpre
          obtain ⟨hnot, rfl, htype, hname, hnsp, hdoc⟩ := preamble_ok hpre
          obtain ⟨rfl, rfl⟩ := h
          have hek : KeysIn enumKeys (enumObj sy df obj) := by
            have := hpk.mono (known' := enumKeys) (by simp [enumKeys])
            unfold enumObj
            cases df <;> simp only <;>
              repeat (first | exact this | refine KeysIn.insert ?_ (by simp [enumKeys]) _)
          have hget : ∀ k ∈ enumKeys, k ≠ "aliases" →
              (finishNamedType (enumObj sy df obj) ps al ns).get? k = (enumObj sy df obj).get? k :=
            fun k hk hk' => finish_get? hps hk hk'
          have hobj : ∀ k, k ≠ "symbols" → k ≠ "default" →
              (enumObj sy df obj).get? k = obj.get? k := by
            intro k h1 h2
            unfold enumObj
            cases df <;> simp [JMap.get?_insert, h1, h2]
          obtain ⟨ns', hnm', hns'⟩ := namedTypeName_export
            (obj := finishNamedType (enumObj sy df obj) ps al ns) (d := d) hdf
            (by rw [hget _ (by simp [enumKeys]) (by decide), hobj _ (by decide) (by decide)]
                exact hname)
            (by rw [hget _ (by simp [enumKeys]) (by decide), hobj _ (by decide) (by decide)]
                exact hnsp) h0 hd
          have himp := import_enum (d := d)
            (obj := finishNamedType (enumObj sy df obj) ps al ns) (by
              unfold getStr
              rw [hget _ (by simp [enumKeys]) (by decide), hobj _ (by decide) (by decide), htype]
              rfl)
          simp only [parseEnum, hnm'] at himp
          refine ⟨_, nm, ns', himp, rfl, rfl, hns', ?_⟩
          simp only [definitions]
          refine Brought.snoc (d := []) (.nil ..) ?_ hg ?_
          · simp only [Schema.fullName?]
            rw [makeFullName_nsStr nm ns', hns', ← makeFullName_nsStr]
          · simp only [outlineDef]
            rw [getStr_of (o := doc) (by
              rw [hget _ (by simp [enumKeys]) (by decide), hobj _ (by decide) (by decide)]
              exact hdoc)]
            have hsy : JMap.get? (finishNamedType (enumObj sy df obj) ps al ns) "symbols" =
                some (.arr (sy.map .str)) := by
              rw [hget _ (by simp [enumKeys]) (by decide)]
              unfold enumObj
              cases df <;> simp [JMap.get?_insert]
            rw [hsy, extractStringArray_strs]
            have hde : getStr (finishNamedType (enumObj sy df obj) ps al ns) "default" = df := by
              apply getStr_of
              rw [hget _ (by simp [enumKeys]) (by decide)]
              unfold enumObj
              cases df with
              | none =>
                simp only [JMap.get?_insert_ne _ _ (show "default" ≠ "symbols" by decide)]
                exact get?_none_of_keysIn hpk (by simp)
              | some x => simp [JMap.get?_insert]
            rw [hde]
            refine .enum hns'.symm ?_ ?_
            · rw [finish_aliases (known := enumKeys) (by
                rw [hobj _ (by decide) (by decide)]
                exact get?_none_of_keysIn hpk (by simp)) hps (by simp [enumKeys])]
              exact sameAliases_export _ hal
            · exact finish_extra hek hwf hps (by simp [enumKeys])
      | fixed nm ns doc sz al ps =>
        simp only [Schema.fullName?, Option.some.injEq] at hfull
        subst hfull
        simp only [schemaToJson] at h
        simp only [Schema.OutOk, Schema.Everywhere, Schema.nsOf, OutNode, InNode] at hok h0 hi
        obtain ⟨⟨hdf, -, -⟩, hps⟩ := hok
        obtain ⟨hwf, hal, hsz⟩ := hi
        cases hpre : namedTypePreamble "fixed" nm ns doc K encl with
        | error bare => exact absurd (preamble_error hpre).1 hK
        | ok okv =>
          obtain ⟨obj, K1⟩ := okv
          rw [hpre] at h
          simp only [Option.some.injEq, Prod.mk.injEq] at h
          have hpk := preamble_keys hpre
          obtain ⟨hnot, rfl, htype, hname, hnsp, hdoc⟩ := preamble_ok hpre
          obtain ⟨rfl, rfl⟩ := h
          have hfk : KeysIn fixedKeys (JMap.insert "size" (.num (.int sz)) obj) :=
            (hpk.mono (by simp [fixedKeys])).insert (by simp [fixedKeys]) _
          have hget : ∀ k ∈ fixedKeys, k ≠ "aliases" → k ≠ "size" →
              (finishNamedType (JMap.insert "size" (.num (.int sz)) obj) ps al ns).get? k =
                obj.get? k :=
            fun k hk hk' hk'' => by rw [finish_get? hps hk hk', JMap.get?_insert_ne _ _ hk'']
          obtain ⟨ns', hnm', hns'⟩ := namedTypeName_export
            (obj := finishNamedType (JMap.insert "size" (.num (.int sz)) obj) ps al ns) (d := d) hdf
            (by rw [hget _ (by simp [fixedKeys]) (by decide) (by decide)]; exact hname)
            (by rw [hget _ (by simp [fixedKeys]) (by decide) (by decide)]; exact hnsp) h0 hd
          have himp := import_fixed (d := d)
            (obj := finishNamedType (JMap.insert "size" (.num (.int sz)) obj) ps al ns) (by
              unfold getStr
              rw [hget _ (by simp [fixedKeys]) (by decide) (by decide), htype]
              rfl)
          have hsize : getU64 (finishNamedType (JMap.insert "size" (.num (.int sz)) obj) ps al ns)
              "size" = some sz := by
            unfold getU64
            rw [finish_get? hps (by simp) (by decide), JMap.get?_insert_self, Option.bind_some,
              asU64_nat hsz]
          simp only [parseFixed, hnm', hsize, toU32?_lt hsz] at himp
          refine ⟨_, nm, ns', himp, rfl, rfl, hns', ?_⟩
          simp only [definitions]
          refine Brought.snoc (d := []) (.nil ..) ?_ hg ?_
          · simp only [Schema.fullName?]
            rw [makeFullName_nsStr nm ns', hns', ← makeFullName_nsStr]
          · simp only [outlineDef]
            rw [getStr_of (o := doc) (by
              rw [hget _ (by simp [fixedKeys]) (by decide) (by decide)]; exact hdoc)]
            refine .fixed hns'.symm ?_ ?_
            · rw [finish_aliases (known := fixedKeys) (by
                rw [JMap.get?_insert_ne _ _ (by decide)]
                exact get?_none_of_keysIn hpk (by simp)) hps (by simp [fixedKeys])]
              exact sameAliases_export _ hal
            · exact finish_extra hfk hwf hps (by simp [fixedKeys])

end Avdl
