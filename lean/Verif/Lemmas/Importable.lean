import Verif.Spec.CompileOk
import Verif.Lemmas.RoundTrip
/-! Lemmas on which JSON documents can be imported. -/

namespace Avdl
open Spec

theorem getStr_eq_some {obj : JMap} {k s : String} :
    getStr obj k = some s ↔ obj.get? k = some (.str s) := by
  unfold getStr
  cases h : obj.get? k with
  | none => simp
  | some v => cases v <;> simp [Json.asStr]

theorem hasText_iff {obj : JMap} {k : String} : HasText obj k ↔ ∃ s, getStr obj k = some s := by
  simp [HasText, getStr_eq_some]

theorem namedTypeName_isSome {obj : JMap} {dflt : Option String} :
    (∃ x, namedTypeName obj dflt = some x) ↔ HasText obj "name" := by
  rw [hasText_iff]
  unfold namedTypeName
  cases getStr obj "name" <;> simp

theorem toU32?_getU64 {obj : JMap} {k : String} {n : Nat} :
    (getU64 obj k).bind toU32? = some n ↔ obj.get? k = some (.num (.int n)) ∧ n < 2 ^ 32 := by
  unfold getU64 toU32?
  cases h : obj.get? k with
  | none => simp
  | some v =>
    cases v with
    | num m =>
      cases m with
      | int i =>
        simp only [Option.bind_some, Json.asU64, Option.some.injEq, Json.num.injEq, JNum.int.injEq]
        by_cases hi : 0 ≤ i ∧ i < 2 ^ 64
        · rw [if_pos hi]
          simp only [Option.bind_some]
          constructor
          · intro h
            split at h
            · injection h with h; subst h
              exact ⟨by omega, by assumption⟩
            · cases h
          · rintro ⟨h1, h2⟩
            have h3 : i.toNat = n := by omega
            rw [h3, if_pos h2]
        · rw [if_neg hi]
          simp only [Option.bind_none, reduceCtorEq, false_iff]
          omega
      | float => simp [Json.asU64]
    | _ => simp [Json.asU64]

theorem hasU32_iff {obj : JMap} {k : String} :
    HasU32 obj k ↔ ∃ n, (getU64 obj k).bind toU32? = some n := by
  simp only [toU32?_getU64, HasU32]
  constructor
  · rintro ⟨n, h1, h2, h3⟩
    exact ⟨n.toNat, by rw [h1]; congr 3; omega, by omega⟩
  · rintro ⟨n, h1, h2⟩
    exact ⟨n, h1, by omega, by omega⟩

theorem parseFixed_isOk {obj : JMap} {dflt : Option String} :
    (∃ s, parseFixed obj dflt = .ok s) ↔ HasText obj "name" ∧ HasU32 obj "size" := by
  rw [← namedTypeName_isSome (dflt := dflt), hasU32_iff]
  unfold parseFixed
  cases namedTypeName obj dflt with
  | none => simp
  | some x =>
    cases getU64 obj "size" with
    | none => simp
    | some n =>
      simp only [Option.bind_some]
      cases toU32? n <;> simp

theorem parseEnum_isOk {obj : JMap} {dflt : Option String} :
    (∃ s, parseEnum obj dflt = .ok s) ↔ HasText obj "name" := by
  rw [← namedTypeName_isSome (dflt := dflt)]
  unfold parseEnum
  cases namedTypeName obj dflt <;> simp

theorem parseAnnotatedPrimitive_isOk {obj : JMap} {p : Prim} :
    (∃ s, parseAnnotatedPrimitive obj p = .ok s) ↔
      ¬ (obj.get? "logicalType" = some (.str "decimal") ∧
        obj.get? "precision" = some (.num (.int 0))) := by
  rw [← getStr_eq_some]
  have h0 : obj.get? "precision" = some (.num (.int 0)) ↔
      (getU64 obj "precision").bind toU32? = some 0 := by
    rw [toU32?_getU64]; simp
  rw [h0]
  unfold parseAnnotatedPrimitive
  cases hl : getStr obj "logicalType" with
  | none => simp only; split <;> simp
  | some l =>
    simp only
    by_cases hd : l = "decimal"
    · subst hd
      cases hp : (getU64 obj "precision").bind toU32? with
      | none => simp [parseLogicalType]
      | some n =>
        simp only [parseLogicalType, String.reduceEq, if_false, if_true]
        cases n <;> simp
    · simp only [Option.some.injEq, hd, false_and, not_false_eq_true, iff_true]
      split
      · rename_i h
        unfold parseLogicalType at h
        simp only [hd, if_false] at h
        repeat' (split at h)
        all_goals first | cases h
      · exact ⟨_, rfl⟩
      · exact ⟨_, rfl⟩

theorem fieldsEntry_get? (d : Option String) (m : JMap) :
    fieldsEntry d m = match m.get? "fields" with
      | some v => fieldsOfJson d v
      | none => .ok [] := by
  induction m with
  | nil => simp [fieldsEntry, JMap.get?]
  | cons kv t ih =>
    obtain ⟨k, v⟩ := kv
    simp only [fieldsEntry, JMap.get?]
    split <;> simp [ih]

theorem schemaEntry_get? (d : Option String) (key : String) (m : JMap) :
    schemaEntry d key m = (m.get? key).map (jsonToSchema d) := by
  induction m with
  | nil => simp [schemaEntry, JMap.get?]
  | cons kv t ih =>
    obtain ⟨k, v⟩ := kv
    simp only [schemaEntry, JMap.get?]
    split <;> simp [ih]

theorem importAll_isOk {α : Type} {imp : Json → Except ImportErr α} {l : List Json} :
    (∃ cs, importAll imp l = .ok cs) ↔ ∀ j ∈ l, ∃ c, imp j = .ok c := by
  induction l with
  | nil => simp [importAll]
  | cons j l ih =>
    simp only [importAll, List.mem_cons, forall_eq_or_imp, ← ih]
    cases imp j with
    | error e => simp
    | ok c => cases importAll imp l <;> simp

theorem fieldsOfJson_isOk {d : Option String} {v : Json} :
    (∃ fs, fieldsOfJson d v = .ok fs) ↔ ∀ l, v = .arr l → ∀ j ∈ l, ∃ f, jsonToField d j = .ok f := by
  cases v <;> simp [fieldsOfJson, jsonToFieldList_eq, importAll_isOk]

theorem ofStr?_some {t : String} {p : Prim} (h : Prim.ofStr? t = some p) : t = p.asStr := by
  unfold Prim.ofStr? at h
  repeat' (split at h)
  all_goals first | (injection h with h; subst h; assumption) | cases h

mutual
theorem jsonToSchema_importable (dflt : Option String) : (j : Json) → ∀ s,
    jsonToSchema dflt j = .ok s → ImportableSchema j
  | .str t, s, h => .name
  | .null, _, h | .bool _, _, h | .num _, _, h => by simp [jsonToSchema] at h
  | .arr l, s, h => by
      simp only [jsonToSchema] at h
      cases hl : jsonToSchemaList dflt l with
      | error e => rw [hl] at h; cases h
      | ok ts => exact .union (jsonToSchemaList_importable dflt l ts hl)
  | .obj obj, s, h => by
      simp only [jsonToSchema] at h
      cases ht : getStr obj "type" with
      | none => rw [ht] at h; cases h
      | some t =>
        rw [ht] at h
        rw [getStr_eq_some] at ht
        simp only at h
        split at h
        · rename_i hr
          cases hn : namedTypeName obj dflt with
          | none => rw [hn] at h; cases h
          | some x =>
            obtain ⟨n, ns⟩ := x
            rw [hn] at h
            simp only at h
            cases hf : fieldsEntry (ns.or dflt) obj with
            | error e => rw [hf] at h; cases h
            | ok fs =>
              exact .record ht hr (namedTypeName_isSome.mp ⟨_, hn⟩)
                (fieldsEntry_importable _ obj fs hf)
        split at h
        · rename_i hr; subst hr
          exact .enum ht (parseEnum_isOk.mp ⟨_, h⟩)
        split at h
        · rename_i hr; subst hr
          obtain ⟨h1, h2⟩ := parseFixed_isOk.mp ⟨_, h⟩
          exact .fixed ht h1 h2
        split at h
        · rename_i hr; subst hr
          cases he : schemaEntry dflt "items" obj with
          | none => rw [he] at h; cases h
          | some r =>
            rw [he] at h
            cases r with
            | error e => cases h
            | ok i =>
              obtain ⟨v, h1, h2⟩ := schemaEntry_importable dflt "items" obj i he
              exact .array ht h1 h2
        split at h
        · rename_i hr; subst hr
          cases he : schemaEntry dflt "values" obj with
          | none => rw [he] at h; cases h
          | some r =>
            rw [he] at h
            cases r with
            | error e => cases h
            | ok i =>
              obtain ⟨v, h1, h2⟩ := schemaEntry_importable dflt "values" obj i he
              exact .map ht h1 h2
        cases hp : Prim.ofStr? t with
        | none => rw [hp] at h; cases h
        | some p =>
          rw [hp] at h
          exact .primitive (ofStr?_some hp ▸ ht) (parseAnnotatedPrimitive_isOk.mp ⟨_, h⟩)
theorem jsonToSchemaList_importable (dflt : Option String) : (js : List Json) → ∀ ss,
    jsonToSchemaList dflt js = .ok ss → ∀ j ∈ js, ImportableSchema j
  | [], ss, h => by simp
  | j :: js, ss, h => by
      simp only [jsonToSchemaList] at h
      cases h1 : jsonToSchema dflt j with
      | error e => rw [h1] at h; cases h
      | ok s =>
        rw [h1] at h
        simp only at h
        cases h2 : jsonToSchemaList dflt js with
        | error e => rw [h2] at h; cases h
        | ok ss' =>
          have h0 := jsonToSchema_importable dflt j s h1
          intro j' hj
          rcases List.mem_cons.mp hj with hj | hj
          · exact hj ▸ h0
          · exact jsonToSchemaList_importable dflt js ss' h2 j' hj
theorem schemaEntry_importable (dflt : Option String) (key : String) :
    (m : List (String × Json)) → ∀ s, schemaEntry dflt key m = some (.ok s) →
      ∃ v, JMap.get? m key = some v ∧ ImportableSchema v
  | [], s, h => by simp [schemaEntry] at h
  | (k, v) :: t, s, h => by
      simp only [schemaEntry] at h
      split at h
      · rename_i hk
        injection h with h
        exact ⟨v, by simp [JMap.get?, hk], jsonToSchema_importable dflt v s h⟩
      · rename_i hk
        obtain ⟨v', h1, h2⟩ := schemaEntry_importable dflt key t s h
        exact ⟨v', by simp [JMap.get?, hk, h1], h2⟩
theorem fieldsEntry_importable (dflt : Option String) : (m : List (String × Json)) → ∀ fs,
    fieldsEntry dflt m = .ok fs →
    ∀ l, JMap.get? m "fields" = some (.arr l) → ∀ j ∈ l, ImportableField j
  | [], fs, h => by simp [JMap.get?]
  | (k, v) :: t, fs, h => by
      simp only [fieldsEntry] at h
      intro l hl
      split at h
      · rename_i hk
        simp only [JMap.get?, hk, if_true, Option.some.injEq] at hl
        exact fieldsOfJson_importable dflt v fs h l hl
      · rename_i hk
        simp only [JMap.get?, hk, if_false] at hl
        exact fieldsEntry_importable dflt t fs h l hl
theorem fieldsOfJson_importable (dflt : Option String) : (v : Json) → ∀ fs,
    fieldsOfJson dflt v = .ok fs → ∀ l, v = .arr l → ∀ j ∈ l, ImportableField j
  | .arr l, fs, h => by
      simp only [fieldsOfJson] at h
      intro l' hl
      injection hl with hl; subst hl
      exact jsonToFieldList_importable dflt l fs h
  | .null, _, h | .bool _, _, h | .num _, _, h | .str _, _, h | .obj _, _, h => by simp
theorem jsonToFieldList_importable (dflt : Option String) : (js : List Json) → ∀ fs,
    jsonToFieldList dflt js = .ok fs → ∀ j ∈ js, ImportableField j
  | [], ss, h => by simp
  | j :: js, ss, h => by
      simp only [jsonToFieldList] at h
      cases h1 : jsonToField dflt j with
      | error e => rw [h1] at h; cases h
      | ok s =>
        rw [h1] at h
        simp only at h
        cases h2 : jsonToFieldList dflt js with
        | error e => rw [h2] at h; cases h
        | ok ss' =>
          have h0 := jsonToField_importable dflt j s h1
          intro j' hj
          rcases List.mem_cons.mp hj with hj | hj
          · exact hj ▸ h0
          · exact jsonToFieldList_importable dflt js ss' h2 j' hj
theorem jsonToField_importable (dflt : Option String) : (j : Json) → ∀ f,
    jsonToField dflt j = .ok f → ImportableField j
  | .obj obj, f, h => by
      simp only [jsonToField] at h
      cases hn : getStr obj "name" with
      | none => rw [hn] at h; cases h
      | some n =>
        rw [hn] at h
        simp only at h
        cases he : schemaEntry dflt "type" obj with
        | none => rw [he] at h; cases h
        | some r =>
          rw [he] at h
          cases r with
          | error e => cases h
          | ok i =>
            obtain ⟨v, h1, h2⟩ := schemaEntry_importable dflt "type" obj i he
            exact .mk (hasText_iff.mpr ⟨_, hn⟩) h1 h2
  | .null, _, h | .bool _, _, h | .num _, _, h | .str _, _, h | .arr _, _, h => by
      simp [jsonToField] at h
end

mutual
theorem importable_jsonToSchema : {j : Json} → ImportableSchema j → ∀ dflt,
    ∃ s, jsonToSchema dflt j = .ok s
  | _, .name, dflt => by simp only [jsonToSchema]; exact ⟨_, rfl⟩
  | _, .union (l := l) h, dflt => by
      have : ∀ j ∈ l, ∃ s, jsonToSchema dflt j = .ok s :=
        fun j hj => importable_jsonToSchema (h j hj) dflt
      obtain ⟨cs, hc⟩ := importAll_isOk.mpr this
      rw [← jsonToSchemaList_eq] at hc
      simp only [jsonToSchema, hc]
      exact ⟨_, rfl⟩
  | _, .record (obj := obj) (t := t) ht hr hn hf, dflt => by
      obtain ⟨⟨n, ns⟩, hx⟩ := (namedTypeName_isSome (dflt := dflt)).mpr hn
      have : ∃ fs, fieldsEntry (ns.or dflt) obj = .ok fs := by
        rw [fieldsEntry_get?]
        cases hg : obj.get? "fields" with
        | none => exact ⟨_, rfl⟩
        | some v =>
          refine fieldsOfJson_isOk.mpr fun l hl j hj => ?_
          subst hl
          exact importable_jsonToField (hf l hg j hj) _
      obtain ⟨fs, hfs⟩ := this
      simp only [jsonToSchema, getStr_eq_some.mpr ht, if_pos hr, hx, hfs]
      exact ⟨_, rfl⟩
  | _, .enum (obj := obj) ht hn, dflt => by
      obtain ⟨s, h⟩ := (parseEnum_isOk (dflt := dflt)).mpr hn
      refine ⟨s, ?_⟩
      simp only [jsonToSchema, getStr_eq_some.mpr ht, String.reduceEq, or_self, if_false, if_true]
      exact h
  | _, .fixed (obj := obj) ht hn hs, dflt => by
      obtain ⟨s, h⟩ := (parseFixed_isOk (dflt := dflt)).mpr ⟨hn, hs⟩
      refine ⟨s, ?_⟩
      simp only [jsonToSchema, getStr_eq_some.mpr ht, String.reduceEq, or_self, if_false, if_true]
      exact h
  | _, .array (obj := obj) (j := j) ht hi h, dflt => by
      obtain ⟨s, h⟩ := importable_jsonToSchema h dflt
      simp only [jsonToSchema, getStr_eq_some.mpr ht, String.reduceEq, or_self, if_false, if_true,
        schemaEntry_get?, hi, Option.map_some, h]
      exact ⟨_, rfl⟩
  | _, .map (obj := obj) (j := j) ht hi h, dflt => by
      obtain ⟨s, h⟩ := importable_jsonToSchema h dflt
      simp only [jsonToSchema, getStr_eq_some.mpr ht, String.reduceEq, or_self, if_false, if_true,
        schemaEntry_get?, hi, Option.map_some, h]
      exact ⟨_, rfl⟩
  | _, .primitive (obj := obj) (p := p) ht h, dflt => by
      obtain ⟨s, h⟩ := (parseAnnotatedPrimitive_isOk (p := p)).mpr h
      refine ⟨s, ?_⟩
      simp only [jsonToSchema, getStr_eq_some.mpr ht]
      cases p <;>
        simpa [Prim.asStr, Prim.ofStr?] using h
theorem importable_jsonToField : {j : Json} → ImportableField j → ∀ dflt,
    ∃ f, jsonToField dflt j = .ok f
  | _, .mk (obj := obj) hn ht h, dflt => by
      obtain ⟨n, hn⟩ := hasText_iff.mp hn
      obtain ⟨s, h⟩ := importable_jsonToSchema h dflt
      simp only [jsonToField, hn, schemaEntry_get?, ht, Option.map_some, h]
      exact ⟨_, rfl⟩
end

theorem jsonToSchema_isOk {dflt : Option String} {j : Json} :
    (∃ s, jsonToSchema dflt j = .ok s) ↔ ImportableSchema j :=
  ⟨fun ⟨s, h⟩ => jsonToSchema_importable dflt j s h, fun h => importable_jsonToSchema h dflt⟩

theorem jsonToField_isOk {dflt : Option String} {j : Json} :
    (∃ f, jsonToField dflt j = .ok f) ↔ ImportableField j :=
  ⟨fun ⟨s, h⟩ => jsonToField_importable dflt j s h, fun h => importable_jsonToField h dflt⟩

theorem jsonToMessage_isOk {dflt : Option String} {j : Json} :
    (∃ m, jsonToMessage dflt j = .ok m) ↔ ImportableMessage j := by
  cases j with
  | obj obj =>
    have e1 : (∃ x, (match JMap.get? obj "request" with
        | some r => fieldsOfJson dflt r
        | none => (Except.ok [] : Except ImportErr (List Field))) = .ok x) ↔
        ∀ l, JMap.get? obj "request" = some (.arr l) → ∀ j ∈ l, ImportableField j := by
      cases JMap.get? obj "request" with
      | none => simp
      | some v => simp [fieldsOfJson_isOk, jsonToField_isOk]
    have e2 : (∃ x, (match schemaEntry dflt "response" obj with
        | some r => r
        | none => (Except.ok (.prim .null) : Except ImportErr Schema)) = .ok x) ↔
        ∀ j, JMap.get? obj "response" = some j → ImportableSchema j := by
      rw [schemaEntry_get?]
      cases JMap.get? obj "response" with
      | none => simp
      | some v => simp [jsonToSchema_isOk]
    have e3 : (∃ x, (match JMap.get? obj "errors" with
        | some (.arr es) => (jsonToSchemaList dflt es).map some
        | _ => (Except.ok none : Except ImportErr (Option (List Schema)))) = .ok x) ↔
        ∀ l, JMap.get? obj "errors" = some (.arr l) → ∀ j ∈ l, ImportableSchema j := by
      cases JMap.get? obj "errors" with
      | none => simp
      | some v =>
        cases v with
        | arr l =>
          simp only [Option.some.injEq, Json.arr.injEq, forall_eq', jsonToSchemaList_eq]
          have := importAll_isOk (imp := jsonToSchema dflt) (l := l)
          simp only [jsonToSchema_isOk] at this
          rw [← this]
          cases importAll (jsonToSchema dflt) l <;> simp [Except.map]
        | _ => simp
    have : ImportableMessage (.obj obj) ↔
        (∀ l, JMap.get? obj "request" = some (.arr l) → ∀ j ∈ l, ImportableField j) ∧
        (∀ j, JMap.get? obj "response" = some j → ImportableSchema j) ∧
        ∀ l, JMap.get? obj "errors" = some (.arr l) → ∀ j ∈ l, ImportableSchema j :=
      ⟨fun | .mk a b c => ⟨a, b, c⟩, fun ⟨a, b, c⟩ => .mk a b c⟩
    rw [this, ← e1, ← e2, ← e3]
    simp only [jsonToMessage]
    generalize schemaEntry dflt "response" obj = y2
    generalize JMap.get? obj "request" = y1
    generalize JMap.get? obj "errors" = y3
    rcases y1 with _ | v <;> rcases y2 with _ | (e | t) <;>
      rcases y3 with _ | (_ | b | n | s | l | ms) <;> simp only <;>
      (try generalize fieldsOfJson dflt v = z1; rcases z1 with e1 | z1) <;>
      (try generalize Except.map some (jsonToSchemaList dflt l) = z3; rcases z3 with e3 | z3) <;>
      simp
  | _ =>
    simp only [jsonToMessage, reduceCtorEq, exists_false, false_iff]
    intro h; cases h

section
variable [CharTables]

theorem importSchema_isOk {j : Json} {r : Registry} :
    (∃ r', importSchema j r = .ok r') ↔ ImportableSchema j := by
  rw [← jsonToSchema_isOk (dflt := none)]
  unfold importSchema
  cases jsonToSchema none j <;> simp

theorem importTypes_isOk {dflt : Option String} {js : List Json} : ∀ {r : Registry},
    (∃ r', importTypes dflt js r = .ok r') ↔ ∀ j ∈ js, ImportableSchema j := by
  induction js with
  | nil => simp [importTypes]
  | cons j js ih =>
    intro r
    simp only [importTypes, List.mem_cons, forall_eq_or_imp]
    rw [← jsonToSchema_isOk (dflt := dflt)]
    cases jsonToSchema dflt j with
    | error e => simp
    | ok s =>
      have := ih (r := flattenAndRegister r s)
      cases hl : importTypes dflt js (flattenAndRegister r s) with
      | error e => rw [hl] at this; simpa [hl] using this
      | ok r' => rw [hl] at this; simpa [hl] using this

omit [CharTables] in
theorem importMessages_isOk {dflt : Option String} {js : List (String × Json)} :
    (∃ ms, importMessages dflt js = .ok ms) ↔ ∀ nj ∈ js, ImportableMessage nj.2 := by
  induction js with
  | nil => simp [importMessages]
  | cons nj js ih =>
    obtain ⟨n, j⟩ := nj
    simp only [importMessages, List.mem_cons, forall_eq_or_imp, ← ih]
    rw [← jsonToMessage_isOk (dflt := dflt)]
    cases jsonToMessage dflt j with
    | error e => simp
    | ok m => cases importMessages dflt js <;> simp

theorem importProtocol_isOk {j : Json} {r : Registry} :
    (∃ x, importProtocol j r = .ok x) ↔ ImportableProtocol j := by
  simp only [importProtocol, ImportableProtocol]
  generalize (j.get? "namespace").bind Json.asStr = dflt
  have e1 : (∃ x, (match (j.get? "types").bind Json.asArr with
      | some ts => importTypes dflt ts r
      | none => (Except.ok r : Except ImportErr Registry)) = .ok x) ↔
      ∀ l, j.get? "types" = some (.arr l) → ∀ t ∈ l, ImportableSchema t := by
    cases j.get? "types" with
    | none => simp
    | some v => cases v <;> simp [Json.asArr, importTypes_isOk]
  have e2 : (∃ x, (match j.get? "messages" with
      | some (.obj ms) => importMessages dflt ms
      | _ => (Except.ok [] : Except ImportErr (List (String × Message)))) = .ok x) ↔
      ∀ ms, j.get? "messages" = some (.obj ms) → ∀ nm ∈ ms, ImportableMessage nm.2 := by
    cases j.get? "messages" with
    | none => simp
    | some v => cases v <;> simp [importMessages_isOk]
  rw [← e1, ← e2]
  generalize (j.get? "types").bind Json.asArr = y1
  generalize j.get? "messages" = y2
  rcases y1 with _ | ts <;> rcases y2 with _ | (_ | b | n | s | l | ms) <;> simp only <;>
    (try generalize importTypes dflt ts r = z1; rcases z1 with e1 | z1) <;>
    (try generalize importMessages dflt ms = z2; rcases z2 with e2 | z2) <;>
    simp

end

end Avdl
