import Verif.Spec.ImportDefect
import Verif.Lemmas.Importable
/-! Lemmas on the first defect of a JSON document. -/

namespace Avdl
open Spec

/-- The first element of a list that cannot be imported. -/
def FirstBad (Ok : Json → Prop) (Bad : Json → List Step → Defect → Prop) (js : List Json)
    (e : ImportErr) : Prop :=
  ∃ before j after, ∃ e' : ImportErr, js = before ++ j :: after ∧ (∀ x ∈ before, Ok x) ∧
    Bad j e'.trail e'.defect ∧ e = e'.within (.entry before.length)

theorem FirstBad.cons {Ok Bad js e j} (hj : Ok j) (h : FirstBad Ok Bad js e) :
    FirstBad Ok Bad (j :: js) e.later := by
  obtain ⟨before, k, after, e', rfl, h1, h2, rfl⟩ := h
  exact ⟨j :: before, k, after, e', rfl, by simpa [hj] using h1, h2, rfl⟩

theorem FirstBad.head {Ok : Json → Prop} {Bad js} {e : ImportErr} {j} (h : Bad j e.trail e.defect) :
    FirstBad Ok Bad (j :: js) (e.within (.entry 0)) :=
  ⟨[], j, js, e, rfl, by simp, h, rfl⟩

theorem lastPart_split (raw : String) : LastPart raw (splitFullName raw).1 := by
  have key : ∀ cs : List Char, match rsplitDot cs with
      | some (a, b) => cs = a ++ '.' :: b ∧ '.' ∉ b
      | none => '.' ∉ cs := by
    intro cs
    induction cs with
    | nil => simp [rsplitDot]
    | cons c cs ih =>
      rw [rsplitDot]
      cases h : rsplitDot cs with
      | some x => rw [h] at ih; obtain ⟨a, b⟩ := x; simp only at ih ⊢; simp [ih.1, ih.2]
      | none =>
        rw [h] at ih
        simp only at ih ⊢
        by_cases hc : c = '.'
        · simp [hc, ih]
        · simp [hc, ih, Ne.symm hc]
  have := key raw.toList
  unfold splitFullName
  cases h : rsplitDot raw.toList with
  | none => rw [h] at this; exact ⟨this, .inl rfl⟩
  | some x =>
    obtain ⟨a, b⟩ := x
    rw [h] at this
    simp only at this ⊢
    exact ⟨by simpa using this.2, .inr ⟨a, by simpa using this.1⟩⟩

theorem lastPart_unique {raw a b : String} (ha : LastPart raw a) (hb : LastPart raw b) : a = b := by
  have key : ∀ {x y u v : List Char}, '.' ∉ x → '.' ∉ y → u ++ '.' :: x = v ++ '.' :: y → x = y := by
    intro x y u v hx hy h
    rcases List.append_eq_append_iff.mp h with ⟨w, h1, h2⟩ | ⟨w, h1, h2⟩
    · cases w with
      | nil => simpa using h2
      | cons c w =>
        simp only [List.cons_append, List.cons.injEq] at h2
        exact absurd (by rw [h2.2]; simp) hx
    · cases w with
      | nil => simpa using h2.symm
      | cons c w =>
        simp only [List.cons_append, List.cons.injEq] at h2
        exact absurd (by rw [h2.2]; simp) hy
  obtain ⟨ha1, ha2⟩ := ha
  obtain ⟨hb1, hb2⟩ := hb
  rcases ha2 with rfl | ⟨u, hu⟩ <;> rcases hb2 with rfl | ⟨v, hv⟩
  · rfl
  · exact absurd (by rw [hv]; simp) ha1
  · exact absurd (by rw [hu]; simp) hb1
  · exact String.toList_inj.mp (key ha1 hb1 (hu.symm.trans hv))

theorem namedTypeName_eq {obj : JMap} {dflt : Option String} {n : String} {ns : Option String}
    (h : namedTypeName obj dflt = some (n, ns)) :
    ∃ raw, obj.get? "name" = some (.str raw) ∧ LastPart raw n := by
  unfold namedTypeName at h
  cases hr : getStr obj "name" with
  | none => rw [hr] at h; cases h
  | some raw =>
    rw [hr] at h
    have := lastPart_split raw
    simp only [Option.some.injEq, Prod.mk.injEq] at h
    rw [h.1] at this
    exact ⟨raw, getStr_eq_some.mp hr, this⟩

theorem namedTypeName_none {obj : JMap} {dflt : Option String} :
    namedTypeName obj dflt = none ↔ ¬ HasText obj "name" := by
  rw [← namedTypeName_isSome (dflt := dflt)]
  cases namedTypeName obj dflt <;> simp

theorem getStr_missing {obj : JMap} {k : String} : getStr obj k = none ↔ ¬ HasText obj k := by
  rw [hasText_iff]
  cases getStr obj k <;> simp

theorem getU64_eq_some {obj : JMap} {k : String} {n : Nat} :
    getU64 obj k = some n ↔ obj.get? k = some (.num (.int n)) ∧ n < 2 ^ 64 := by
  unfold getU64
  cases h : obj.get? k with
  | none => simp
  | some v =>
    cases v with
    | num m =>
      cases m with
      | int i =>
        simp only [Option.bind_some, Json.asU64, Option.some.injEq, Json.num.injEq, JNum.int.injEq]
        split
        · simp only [Option.some.injEq]; omega
        · simp only [reduceCtorEq, false_iff]; omega
      | float => simp [Json.asU64]
    | _ => simp [Json.asU64]

theorem getU64_none {obj : JMap} {k : String} : getU64 obj k = none ↔ ¬ HasU64 obj k := by
  constructor
  · rintro h ⟨n, h1, h2, h3⟩
    have : getU64 obj k = some n.toNat :=
      getU64_eq_some.mpr ⟨by rw [h1]; congr 3; omega, by omega⟩
    rw [h] at this; cases this
  · intro h
    cases hn : getU64 obj k with
    | none => rfl
    | some n =>
      obtain ⟨h1, h2⟩ := getU64_eq_some.mp hn
      exact absurd ⟨n, h1, by omega, by omega⟩ h

theorem primOfStr?_none {t : String} : Prim.ofStr? t = none ↔ ∀ p : Prim, t ≠ p.asStr := by
  constructor
  · rintro h p rfl
    cases p <;> simp [Prim.asStr, Prim.ofStr?] at h
  · intro h
    cases hp : Prim.ofStr? t with
    | none => rfl
    | some p => exact absurd (ofStr?_some hp) (h p)

theorem parseAnnotatedPrimitive_error {obj : JMap} {p : Prim} {e : ImportErr}
    (h : parseAnnotatedPrimitive obj p = .error e) : e = Defect.decimalPrecision.here ∧
      obj.get? "logicalType" = some (.str "decimal") ∧
        obj.get? "precision" = some (.num (.int 0)) := by
  have h' := parseAnnotatedPrimitive_isOk (obj := obj) (p := p)
  refine ⟨?_, Classical.not_not.mp fun hn => by
    obtain ⟨s, hs⟩ := h'.mpr hn; rw [h] at hs; cases hs⟩
  unfold parseAnnotatedPrimitive at h
  cases hl : getStr obj "logicalType" with
  | none =>
    rw [hl] at h
    simp only at h
    split at h <;> cases h
  | some logical =>
    rw [hl] at h
    simp only at h
    split at h
    · split at h
      · exact (Except.error.inj h).symm
      · cases h
    · cases h
    · cases h

mutual
theorem jsonToSchema_defect (dflt : Option String) : (j : Json) → ∀ e,
    jsonToSchema dflt j = .error e → SchemaDefect j e.trail e.defect
  | .str t, e, h => by simp [jsonToSchema] at h
  | .null, e, h => by
      simp only [jsonToSchema, Except.error.injEq] at h
      subst h; exact .notSchema (by simp) (by simp) (by simp)
  | .bool _, e, h => by
      simp only [jsonToSchema, Except.error.injEq] at h
      subst h; exact .notSchema (by simp) (by simp) (by simp)
  | .num _, e, h => by
      simp only [jsonToSchema, Except.error.injEq] at h
      subst h; exact .notSchema (by simp) (by simp) (by simp)
  | .arr l, e, h => by
      simp only [jsonToSchema] at h
      cases hl : jsonToSchemaList dflt l with
      | ok ts => rw [hl] at h; cases h
      | error e0 =>
        rw [hl] at h
        injection h with h
        obtain ⟨before, j, after, e', rfl, h1, h2, rfl⟩ := jsonToSchemaList_defect dflt l e0 hl
        subst h
        exact .member h1 h2
  | .obj obj, e, h => by
      simp only [jsonToSchema] at h
      cases ht : getStr obj "type" with
      | none =>
        rw [ht] at h
        injection h with h; subst h
        exact .noType (getStr_missing.mp ht)
      | some t =>
        rw [ht] at h
        rw [getStr_eq_some] at ht
        simp only at h
        split at h
        · rename_i hr
          cases hn : namedTypeName obj dflt with
          | none =>
            rw [hn] at h
            injection h with h; subst h
            refine .noName ht ?_ (namedTypeName_none.mp hn)
            rcases hr with rfl | rfl <;> decide
          | some x =>
            obtain ⟨n, ns⟩ := x
            rw [hn] at h
            simp only at h
            cases hf : fieldsEntry (ns.or dflt) obj with
            | ok fs => rw [hf] at h; cases h
            | error e0 =>
              rw [hf] at h
              injection h with h
              obtain ⟨l, hl, before, j, after, e', rfl, h1, h2, rfl⟩ := fieldsEntry_defect _ obj e0 hf
              subst h
              obtain ⟨raw, hraw, hlast⟩ := namedTypeName_eq hn
              exact .field ht hr hraw hlast hl h1 h2
        split at h
        · rename_i hr; subst hr
          unfold parseEnum at h
          cases hn : namedTypeName obj dflt with
          | none =>
            rw [hn] at h
            injection h with h; subst h
            exact .noName ht (by decide) (namedTypeName_none.mp hn)
          | some x => rw [hn] at h; cases h
        split at h
        · rename_i hr; subst hr
          unfold parseFixed at h
          cases hn : namedTypeName obj dflt with
          | none =>
            rw [hn] at h
            injection h with h; subst h
            exact .noName ht (by decide) (namedTypeName_none.mp hn)
          | some x =>
            have hname := namedTypeName_isSome.mp ⟨_, hn⟩
            rw [hn] at h
            simp only at h
            cases hs : getU64 obj "size" with
            | none =>
              rw [hs] at h
              injection h with h; subst h
              exact .noSize ht hname (getU64_none.mp hs)
            | some n =>
              rw [hs] at h
              obtain ⟨hs1, hs2⟩ := getU64_eq_some.mp hs
              simp only [toU32?] at h
              by_cases hlt : n < 2 ^ 32
              · rw [if_pos hlt] at h; cases h
              · rw [if_neg hlt] at h
                injection h with h; subst h
                exact .largeSize ht hname hs1 (by omega) hs2
        split at h
        · rename_i hr; subst hr
          cases he : schemaEntry dflt "items" obj with
          | none =>
            rw [he] at h
            injection h with h; subst h
            rw [schemaEntry_get?, Option.map_eq_none_iff] at he
            exact .noItems ht he
          | some r =>
            rw [he] at h
            cases r with
            | ok i => cases h
            | error e0 =>
              injection h with h; subst h
              obtain ⟨v, h1, h2⟩ := schemaEntry_defect dflt "items" obj e0 he
              exact .items ht h1 h2
        split at h
        · rename_i hr; subst hr
          cases he : schemaEntry dflt "values" obj with
          | none =>
            rw [he] at h
            injection h with h; subst h
            rw [schemaEntry_get?, Option.map_eq_none_iff] at he
            exact .noValues ht he
          | some r =>
            rw [he] at h
            cases r with
            | ok i => cases h
            | error e0 =>
              injection h with h; subst h
              obtain ⟨v, h1, h2⟩ := schemaEntry_defect dflt "values" obj e0 he
              exact .values ht h1 h2
        rename_i h1 h2 h3 h4 h5
        cases hp : Prim.ofStr? t with
        | none =>
          rw [hp] at h
          injection h with h; subst h
          refine .unknownType ht ?_ (primOfStr?_none.mp hp)
          rw [not_or] at h1
          simp [complexKinds, h1.1, h1.2, h2, h3, h4, h5]
        | some p =>
          rw [hp] at h
          obtain ⟨rfl, g1, g2⟩ := parseAnnotatedPrimitive_error h
          exact .zeroPrecision (ofStr?_some hp ▸ ht) g1 g2
theorem jsonToSchemaList_defect (dflt : Option String) : (js : List Json) → ∀ e,
    jsonToSchemaList dflt js = .error e → FirstBad ImportableSchema SchemaDefect js e
  | [], e, h => by simp [jsonToSchemaList] at h
  | j :: js, e, h => by
      simp only [jsonToSchemaList] at h
      cases h1 : jsonToSchema dflt j with
      | error e0 =>
        rw [h1] at h
        injection h with h; subst h
        exact FirstBad.head (jsonToSchema_defect dflt j e0 h1)
      | ok s =>
        rw [h1] at h
        simp only at h
        cases h2 : jsonToSchemaList dflt js with
        | ok ss' => rw [h2] at h; cases h
        | error e0 =>
          rw [h2] at h
          injection h with h; subst h
          exact (jsonToSchemaList_defect dflt js e0 h2).cons (jsonToSchema_importable dflt j s h1)
theorem schemaEntry_defect (dflt : Option String) (key : String) :
    (m : List (String × Json)) → ∀ e, schemaEntry dflt key m = some (.error e) →
      ∃ v, JMap.get? m key = some v ∧ SchemaDefect v e.trail e.defect
  | [], s, h => by simp [schemaEntry] at h
  | (k, v) :: t, e, h => by
      simp only [schemaEntry] at h
      split at h
      · rename_i hk
        injection h with h
        exact ⟨v, by simp [JMap.get?, hk], jsonToSchema_defect dflt v e h⟩
      · rename_i hk
        obtain ⟨v', h1, h2⟩ := schemaEntry_defect dflt key t e h
        exact ⟨v', by simp [JMap.get?, hk, h1], h2⟩
theorem fieldsEntry_defect (dflt : Option String) : (m : List (String × Json)) → ∀ e,
    fieldsEntry dflt m = .error e →
    ∃ l, JMap.get? m "fields" = some (.arr l) ∧ FirstBad ImportableField FieldDefect l e
  | [], fs, h => by simp [fieldsEntry] at h
  | (k, v) :: t, e, h => by
      simp only [fieldsEntry] at h
      split at h
      · rename_i hk
        obtain ⟨l, rfl, hl⟩ := fieldsOfJson_defect dflt v e h
        exact ⟨l, by simp [JMap.get?, hk], hl⟩
      · rename_i hk
        obtain ⟨l, h1, h2⟩ := fieldsEntry_defect dflt t e h
        exact ⟨l, by simp [JMap.get?, hk, h1], h2⟩
theorem fieldsOfJson_defect (dflt : Option String) : (v : Json) → ∀ e,
    fieldsOfJson dflt v = .error e → ∃ l, v = .arr l ∧ FirstBad ImportableField FieldDefect l e
  | .arr l, e, h => by
      simp only [fieldsOfJson] at h
      exact ⟨l, rfl, jsonToFieldList_defect dflt l e h⟩
  | .null, _, h | .bool _, _, h | .num _, _, h | .str _, _, h | .obj _, _, h => by
      simp [fieldsOfJson] at h
theorem jsonToFieldList_defect (dflt : Option String) : (js : List Json) → ∀ e,
    jsonToFieldList dflt js = .error e → FirstBad ImportableField FieldDefect js e
  | [], e, h => by simp [jsonToFieldList] at h
  | j :: js, e, h => by
      simp only [jsonToFieldList] at h
      cases h1 : jsonToField dflt j with
      | error e0 =>
        rw [h1] at h
        injection h with h; subst h
        exact FirstBad.head (jsonToField_defect dflt j e0 h1)
      | ok s =>
        rw [h1] at h
        simp only at h
        cases h2 : jsonToFieldList dflt js with
        | ok ss' => rw [h2] at h; cases h
        | error e0 =>
          rw [h2] at h
          injection h with h; subst h
          exact (jsonToFieldList_defect dflt js e0 h2).cons (jsonToField_importable dflt j s h1)
theorem jsonToField_defect (dflt : Option String) : (j : Json) → ∀ e,
    jsonToField dflt j = .error e → FieldDefect j e.trail e.defect
  | .obj obj, e, h => by
      simp only [jsonToField] at h
      cases hn : getStr obj "name" with
      | none =>
        rw [hn] at h
        injection h with h; subst h
        exact .noName (getStr_missing.mp hn)
      | some n =>
        rw [hn] at h
        simp only at h
        cases he : schemaEntry dflt "type" obj with
        | none =>
          rw [he] at h
          injection h with h; subst h
          rw [schemaEntry_get?, Option.map_eq_none_iff] at he
          exact .noType (hasText_iff.mpr ⟨_, hn⟩) he
        | some r =>
          rw [he] at h
          cases r with
          | ok i => cases h
          | error e0 =>
            injection h with h; subst h
            obtain ⟨v, h1, h2⟩ := schemaEntry_defect dflt "type" obj e0 he
            exact .type (getStr_eq_some.mp hn) h1 h2
  | .null, _, h | .bool _, _, h | .num _, _, h | .str _, _, h | .arr _, _, h => by
      simp only [jsonToField, Except.error.injEq] at h
      subst h
      exact .notObject (by simp)
end

theorem parseAnnotatedPrimitive_zero {obj : JMap} {p : Prim}
    (h1 : obj.get? "logicalType" = some (.str "decimal"))
    (h2 : obj.get? "precision" = some (.num (.int 0))) :
    parseAnnotatedPrimitive obj p = .error Defect.decimalPrecision.here := by
  cases h : parseAnnotatedPrimitive obj p with
  | error e => rw [(parseAnnotatedPrimitive_error h).1]
  | ok s => exact absurd ⟨h1, h2⟩ (parseAnnotatedPrimitive_isOk.mp ⟨s, h⟩)

theorem jsonToSchemaList_bad {dflt : Option String} {j : Json} {after : List Json} {e : ImportErr}
    (hj : jsonToSchema dflt j = .error e) : ∀ {before : List Json},
    (∀ x ∈ before, ImportableSchema x) →
      jsonToSchemaList dflt (before ++ j :: after) = .error (e.within (.entry before.length)) := by
  intro before h
  induction before with
  | nil => simp [jsonToSchemaList, hj]
  | cons x before ih =>
    obtain ⟨s, hs⟩ := importable_jsonToSchema (h x (by simp)) dflt
    simp only [List.cons_append, jsonToSchemaList, hs, ih fun y hy => h y (by simp [hy])]
    rfl

theorem jsonToFieldList_bad {dflt : Option String} {j : Json} {after : List Json} {e : ImportErr}
    (hj : jsonToField dflt j = .error e) : ∀ {before : List Json},
    (∀ x ∈ before, ImportableField x) →
      jsonToFieldList dflt (before ++ j :: after) = .error (e.within (.entry before.length)) := by
  intro before h
  induction before with
  | nil => simp [jsonToFieldList, hj]
  | cons x before ih =>
    obtain ⟨s, hs⟩ := importable_jsonToField (h x (by simp)) dflt
    simp only [List.cons_append, jsonToFieldList, hs, ih fun y hy => h y (by simp [hy])]
    rfl

theorem namedTypeName_of {obj : JMap} {dflt : Option String} {raw n : String}
    (h : obj.get? "name" = some (.str raw)) (hl : LastPart raw n) :
    ∃ ns, namedTypeName obj dflt = some (n, ns) := by
  obtain ⟨⟨n', ns⟩, hx⟩ := (namedTypeName_isSome (dflt := dflt)).mpr ⟨raw, h⟩
  obtain ⟨raw', h1, h2⟩ := namedTypeName_eq hx
  rw [h] at h1
  simp only [Option.some.injEq, Json.str.injEq] at h1
  subst h1
  rw [lastPart_unique hl h2]
  exact ⟨ns, hx⟩

mutual
theorem defect_jsonToSchema : {j : Json} → {t : List Step} → {d : Defect} → SchemaDefect j t d →
    ∀ dflt, jsonToSchema dflt j = .error ⟨t, d⟩
  | j, _, _, .notSchema h1 h2 h3, dflt => by
      cases j with
      | str s => exact absurd rfl (h1 s)
      | arr l => exact absurd rfl (h2 l)
      | obj o => exact absurd rfl (h3 o)
      | _ => simp [jsonToSchema, Defect.here]
  | _, _, _, .member hb h, dflt => by
      simp only [jsonToSchema, jsonToSchemaList_bad (defect_jsonToSchema h dflt) hb]
      rfl
  | _, _, _, .noType h, dflt => by
      simp only [jsonToSchema, getStr_missing.mpr h]
      rfl
  | _, _, _, .unknownType (t := t) ht hc hp, dflt => by
      simp only [complexKinds, List.mem_cons, List.not_mem_nil, or_false, not_or] at hc
      simp only [jsonToSchema, getStr_eq_some.mpr ht, hc, or_self, if_false,
        primOfStr?_none.mpr hp]
      rfl
  | _, _, _, .noName (t := t) ht hk hn, dflt => by
      have hn' := (namedTypeName_none (dflt := dflt)).mpr hn
      simp only [namedKinds, List.mem_cons, List.not_mem_nil, or_false, Prod.mk.injEq] at hk
      rcases hk with ⟨rfl, rfl⟩ | ⟨rfl, rfl⟩ | ⟨rfl, rfl⟩ | ⟨rfl, rfl⟩ <;>
        simp [jsonToSchema, getStr_eq_some.mpr ht, hn', parseEnum, parseFixed, Defect.here]
  | _, _, _, .field (obj := obj) (t := t) ht hr hn hl hf hb h, dflt => by
      obtain ⟨ns, hx⟩ := namedTypeName_of (dflt := dflt) hn hl
      simp only [jsonToSchema, getStr_eq_some.mpr ht, if_pos hr, hx, fieldsEntry_get?, hf,
        fieldsOfJson, jsonToFieldList_bad (defect_jsonToField h _) hb]
      rfl
  | _, _, _, .noSize ht hn hs, dflt => by
      obtain ⟨x, hx⟩ := (namedTypeName_isSome (dflt := dflt)).mpr hn
      simp only [jsonToSchema, getStr_eq_some.mpr ht, String.reduceEq, or_self, if_false, if_true,
        parseFixed, hx, getU64_none.mpr hs]
      rfl
  | _, _, _, .largeSize (n := n) ht hn hs h1 h2, dflt => by
      obtain ⟨x, hx⟩ := (namedTypeName_isSome (dflt := dflt)).mpr hn
      simp only [jsonToSchema, getStr_eq_some.mpr ht, String.reduceEq, or_self, if_false, if_true,
        parseFixed, hx, getU64_eq_some.mpr ⟨hs, h2⟩, toU32?, if_neg (Nat.not_lt.mpr h1)]
      rfl
  | _, _, _, .noItems ht hi, dflt => by
      simp only [jsonToSchema, getStr_eq_some.mpr ht, String.reduceEq, or_self, if_false, if_true,
        schemaEntry_get?, hi, Option.map_none]
      rfl
  | _, _, _, .items ht hi h, dflt => by
      simp only [jsonToSchema, getStr_eq_some.mpr ht, String.reduceEq, or_self, if_false, if_true,
        schemaEntry_get?, hi, Option.map_some, defect_jsonToSchema h dflt]
      rfl
  | _, _, _, .noValues ht hi, dflt => by
      simp only [jsonToSchema, getStr_eq_some.mpr ht, String.reduceEq, or_self, if_false, if_true,
        schemaEntry_get?, hi, Option.map_none]
      rfl
  | _, _, _, .values ht hi h, dflt => by
      simp only [jsonToSchema, getStr_eq_some.mpr ht, String.reduceEq, or_self, if_false, if_true,
        schemaEntry_get?, hi, Option.map_some, defect_jsonToSchema h dflt]
      rfl
  | _, _, _, .zeroPrecision (p := p) ht h1 h2, dflt => by
      have h := parseAnnotatedPrimitive_zero (p := p) h1 h2
      simp only [jsonToSchema, getStr_eq_some.mpr ht]
      cases p <;> simpa [Prim.asStr, Prim.ofStr?, Defect.here] using h
theorem defect_jsonToField : {j : Json} → {t : List Step} → {d : Defect} → FieldDefect j t d →
    ∀ dflt, jsonToField dflt j = .error ⟨t, d⟩
  | j, _, _, .notObject h, dflt => by
      cases j with
      | obj o => exact absurd rfl (h o)
      | _ => simp [jsonToField, Defect.here]
  | _, _, _, .noName h, dflt => by
      simp only [jsonToField, getStr_missing.mpr h]
      rfl
  | _, _, _, .noType hn ht, dflt => by
      obtain ⟨n, hn⟩ := hasText_iff.mp hn
      simp only [jsonToField, hn, schemaEntry_get?, ht, Option.map_none]
      rfl
  | _, _, _, .type hn ht h, dflt => by
      simp only [jsonToField, getStr_eq_some.mpr hn, schemaEntry_get?, ht, Option.map_some,
        defect_jsonToSchema h dflt]
      rfl
end

theorem jsonToSchema_error {dflt : Option String} {j : Json} {e : ImportErr} :
    jsonToSchema dflt j = .error e ↔ SchemaDefect j e.trail e.defect :=
  ⟨jsonToSchema_defect dflt j e, fun h => defect_jsonToSchema h dflt⟩

theorem jsonToField_error {dflt : Option String} {j : Json} {e : ImportErr} :
    jsonToField dflt j = .error e ↔ FieldDefect j e.trail e.defect :=
  ⟨jsonToField_defect dflt j e, fun h => defect_jsonToField h dflt⟩

/-- The parameters of a message. -/
def requestOf (dflt : Option String) (obj : JMap) : Except ImportErr (List Field) :=
  match JMap.get? obj "request" with
  | some r => fieldsOfJson dflt r
  | none => .ok []

/-- The result of a message. -/
def responseOf (dflt : Option String) (obj : JMap) : Except ImportErr Schema :=
  match schemaEntry dflt "response" obj with
  | some r => r
  | none => .ok (.prim .null)

/-- The errors of a message. -/
def errorsOf (dflt : Option String) (obj : JMap) : Except ImportErr (Option (List Schema)) :=
  match JMap.get? obj "errors" with
  | some (.arr es) => (jsonToSchemaList dflt es).map some
  | _ => .ok none

theorem jsonToMessage_parts {dflt : Option String} {obj : JMap} : jsonToMessage dflt (.obj obj) =
    match requestOf dflt obj with
    | .error e => .error (e.inList .parameter)
    | .ok request =>
      match responseOf dflt obj with
      | .error e => .error (e.within .response)
      | .ok response =>
        match errorsOf dflt obj with
        | .error e => .error (e.inList .error)
        | .ok errors =>
          .ok { doc := getStr obj "doc", props := collectExtra obj messageKeys, request, response,
                errors, oneWay := ((JMap.get? obj "one-way").bind Json.asBool).getD false } := rfl

theorem jsonToMessage_error {dflt : Option String} {j : Json} {e : ImportErr} :
    jsonToMessage dflt j = .error e ↔ MessageDefect j e.trail e.defect := by
  constructor
  · intro h
    cases j with
    | obj obj =>
      rw [jsonToMessage_parts] at h
      have hreq : ∀ e0, requestOf dflt obj = .error e0 →
          ∃ l, JMap.get? obj "request" = some (.arr l) ∧ FirstBad ImportableField FieldDefect l e0 := by
        intro e0 h0
        unfold requestOf at h0
        cases hr : JMap.get? obj "request" with
        | none => rw [hr] at h0; cases h0
        | some v =>
          rw [hr] at h0
          obtain ⟨l, rfl, hl⟩ := fieldsOfJson_defect dflt v e0 h0
          exact ⟨l, rfl, hl⟩
      have hreq' : ∀ x, requestOf dflt obj = .ok x →
          ∀ l, JMap.get? obj "request" = some (.arr l) → ∀ x ∈ l, ImportableField x := by
        intro x h0 l hl
        unfold requestOf at h0
        rw [hl] at h0
        exact fieldsOfJson_importable dflt (.arr l) x h0 l rfl
      have hresp : ∀ e0, responseOf dflt obj = .error e0 →
          ∃ j, JMap.get? obj "response" = some j ∧ SchemaDefect j e0.trail e0.defect := by
        intro e0 h0
        unfold responseOf at h0
        rw [schemaEntry_get?] at h0
        cases hr : JMap.get? obj "response" with
        | none => rw [hr] at h0; cases h0
        | some v => rw [hr] at h0; exact ⟨v, rfl, jsonToSchema_error.mp h0⟩
      have hresp' : ∀ x, responseOf dflt obj = .ok x →
          ∀ j, JMap.get? obj "response" = some j → ImportableSchema j := by
        intro x h0 j hj
        unfold responseOf at h0
        rw [schemaEntry_get?, hj] at h0
        exact jsonToSchema_importable dflt j x h0
      have herr : ∀ e0, errorsOf dflt obj = .error e0 →
          ∃ l, JMap.get? obj "errors" = some (.arr l) ∧ FirstBad ImportableSchema SchemaDefect l e0 := by
        intro e0 h0
        unfold errorsOf at h0
        cases he : JMap.get? obj "errors" with
        | none => rw [he] at h0; cases h0
        | some v =>
          rw [he] at h0
          cases v with
          | arr es =>
            simp only at h0
            cases hes : jsonToSchemaList dflt es with
            | ok ss => rw [hes] at h0; cases h0
            | error e1 =>
              rw [hes] at h0
              injection h0 with h0; subst h0
              exact ⟨es, rfl, jsonToSchemaList_defect dflt es e1 hes⟩
          | _ => cases h0
      cases hx : requestOf dflt obj with
      | error e0 =>
        rw [hx] at h
        injection h with h
        obtain ⟨l, hl, before, j, after, e', rfl, h1, h2, rfl⟩ := hreq e0 hx
        subst h
        exact .parameter hl h1 h2
      | ok x =>
        rw [hx] at h
        simp only at h
        cases hy : responseOf dflt obj with
        | error e0 =>
          rw [hy] at h
          injection h with h; subst h
          obtain ⟨j, h1, h2⟩ := hresp e0 hy
          exact .response (hreq' x hx) h1 h2
        | ok y =>
          rw [hy] at h
          simp only at h
          cases hz : errorsOf dflt obj with
          | error e0 =>
            rw [hz] at h
            injection h with h
            obtain ⟨l, hl, before, j, after, e', rfl, h1, h2, rfl⟩ := herr e0 hz
            subst h
            exact .error (hreq' x hx) (hresp' y hy) hl h1 h2
          | ok z => rw [hz] at h; cases h
    | _ =>
      simp only [jsonToMessage, Except.error.injEq] at h
      subst h
      exact .notObject (by simp)
  · have hok : ∀ {obj : JMap}, (∀ l, obj.get? "request" = some (.arr l) → ∀ x ∈ l, ImportableField x) →
        ∃ x, requestOf dflt obj = .ok x := by
      intro obj h
      unfold requestOf
      cases hr : JMap.get? obj "request" with
      | none => exact ⟨_, rfl⟩
      | some v =>
        refine fieldsOfJson_isOk.mpr fun l hl j hj => ?_
        subst hl
        exact importable_jsonToField (h l hr j hj) _
    intro h
    obtain ⟨t, d⟩ := e
    simp only at h
    cases h with
    | notObject h =>
      cases j with
      | obj o => exact absurd rfl (h o)
      | _ => simp [jsonToMessage, Defect.here]
    | parameter hr hb h =>
      simp only [jsonToMessage_parts, requestOf, hr, fieldsOfJson, jsonToFieldList_bad (defect_jsonToField h dflt) hb]
      rfl
    | response hreq hr h =>
      obtain ⟨x, hx⟩ := hok hreq
      simp only [jsonToMessage_parts, hx, responseOf, schemaEntry_get?, hr, Option.map_some, defect_jsonToSchema h dflt]
      rfl
    | @error obj _ _ _ _ _ hreq hresp he hb h =>
      obtain ⟨x, hx⟩ := hok hreq
      have hr : ∃ s, responseOf dflt obj = .ok s := by
        unfold responseOf
        rw [schemaEntry_get?]
        cases hg : JMap.get? obj "response" with
        | none => exact ⟨_, rfl⟩
        | some v => exact importable_jsonToSchema (hresp v hg) dflt
      obtain ⟨s, hs⟩ := hr
      simp only [jsonToMessage_parts, hx, hs, errorsOf, he, jsonToSchemaList_bad (defect_jsonToSchema h dflt) hb]
      rfl

theorem importMessages_error {dflt : Option String} {js : List (String × Json)} {e : ImportErr} :
    importMessages dflt js = .error e ↔ ∃ before name j after e', js = before ++ (name, j) :: after ∧
      (∀ x ∈ before, ImportableMessage x.2) ∧ MessageDefect j e'.trail e'.defect ∧
        e = ImportErr.within e' (.message name) := by
  induction js with
  | nil => simp [importMessages]
  | cons nj js ih =>
    obtain ⟨n, j⟩ := nj
    simp only [importMessages]
    cases h1 : jsonToMessage dflt j with
    | error e0 =>
      have hd := jsonToMessage_error.mp h1
      simp only [Except.error.injEq]
      constructor
      · rintro rfl; exact ⟨[], n, j, js, e0, rfl, by simp, hd, rfl⟩
      · rintro ⟨before, name, j', after, e', h, hb, h2, rfl⟩
        cases before with
        | nil =>
          simp only [List.nil_append, List.cons.injEq, Prod.mk.injEq] at h
          obtain ⟨⟨rfl, rfl⟩, rfl⟩ := h
          have := (jsonToMessage_error (dflt := dflt)).mpr h2
          rw [h1] at this
          injection this with this
          rw [this]
        | cons b before =>
          simp only [List.cons_append, List.cons.injEq] at h
          obtain ⟨rfl, rfl⟩ := h
          obtain ⟨m, hm⟩ := (jsonToMessage_isOk (dflt := dflt)).mpr (hb (n, j) (by simp))
          rw [h1] at hm; cases hm
    | ok m =>
      have hm : ImportableMessage j := jsonToMessage_isOk.mp ⟨m, h1⟩
      have : importMessages dflt ((n, j) :: js) = .error e ↔ importMessages dflt js = .error e := by
        simp only [importMessages, h1]
        cases importMessages dflt js <;> simp
      simp only [importMessages, h1] at this
      simp only
      rw [this, ih]
      constructor
      · rintro ⟨before, name, j', after, e', rfl, hb, h2, rfl⟩
        exact ⟨(n, j) :: before, name, j', after, e', rfl, by
          intro x hx
          rcases List.mem_cons.mp hx with rfl | hx
          · exact hm
          · exact hb x hx, h2, rfl⟩
      · rintro ⟨before, name, j', after, e', h, hb, h2, rfl⟩
        cases before with
        | nil =>
          simp only [List.nil_append, List.cons.injEq, Prod.mk.injEq] at h
          obtain ⟨⟨rfl, rfl⟩, rfl⟩ := h
          rw [(jsonToMessage_error (dflt := dflt)).mpr h2] at h1
          cases h1
        | cons b before =>
          simp only [List.cons_append, List.cons.injEq] at h
          obtain ⟨rfl, rfl⟩ := h
          exact ⟨before, name, j', after, e', rfl, fun x hx => hb x (by simp [hx]), h2, rfl⟩

section
variable [CharTables]

theorem importSchema_error {j : Json} {r : Registry} {e : ImportErr} :
    importSchema j r = .error e ↔ SchemaDefect j e.trail e.defect := by
  rw [← jsonToSchema_error (dflt := none)]
  unfold importSchema
  cases jsonToSchema none j <;> simp

theorem importTypes_list {dflt : Option String} {js : List Json} {e : ImportErr} : ∀ {r : Registry},
    importTypes dflt js r = .error e ↔ jsonToSchemaList dflt js = .error e := by
  induction js generalizing e with
  | nil => simp [importTypes, jsonToSchemaList]
  | cons j js ih =>
    intro r
    simp only [importTypes, jsonToSchemaList]
    cases h : jsonToSchema dflt j with
    | error e0 => simp
    | ok s =>
      simp only
      cases h1 : importTypes dflt js (flattenAndRegister r s) with
      | error e1 => rw [ih.mp h1]; simp
      | ok r' =>
        cases h2 : jsonToSchemaList dflt js with
        | error e2 => rw [ih.mpr h2] at h1; cases h1
        | ok ss => simp

/-- The types of a protocol. -/
def typesOf (dflt : Option String) (j : Json) (r : Registry) : Except ImportErr Registry :=
  match (j.get? "types").bind Json.asArr with
  | some ts => importTypes dflt ts r
  | none => .ok r

/-- The messages of a protocol. -/
def messagesOf (dflt : Option String) (j : Json) : Except ImportErr (List (String × Message)) :=
  match j.get? "messages" with
  | some (.obj ms) => importMessages dflt ms
  | _ => .ok []

theorem importProtocol_parts {j : Json} {r : Registry} : importProtocol j r =
    match typesOf ((j.get? "namespace").bind Json.asStr) j r with
    | .error e => .error (e.inList .type)
    | .ok r =>
      match messagesOf ((j.get? "namespace").bind Json.asStr) j with
      | .error e => .error e
      | .ok ms => .ok (r, ms) := rfl

theorem importProtocol_error {j : Json} {r : Registry} {e : ImportErr} :
    importProtocol j r = .error e ↔ ProtocolDefect j e.trail e.defect := by
  rw [importProtocol_parts]
  generalize (j.get? "namespace").bind Json.asStr = dflt
  constructor
  · intro h
    unfold typesOf at h
    have htypes : (∃ e0, importTypes dflt (((j.get? "types").bind Json.asArr).getD []) r = .error e0 ∧
        e = e0.inList .type) ∨ ((∃ r', importTypes dflt (((j.get? "types").bind Json.asArr).getD []) r = .ok r') ∧
        messagesOf dflt j = .error e) := by
      cases hb : (j.get? "types").bind Json.asArr with
      | none =>
        rw [hb] at h
        simp only at h
        refine .inr ⟨⟨r, rfl⟩, ?_⟩
        cases hy : messagesOf dflt j <;> simp_all
      | some ts =>
        rw [hb] at h
        simp only [Option.getD_some] at h ⊢
        cases hi : importTypes dflt ts r with
        | error e0 =>
          rw [hi] at h
          injection h with h
          exact .inl ⟨e0, rfl, h.symm⟩
        | ok r' =>
          rw [hi] at h
          refine .inr ⟨⟨r', rfl⟩, ?_⟩
          cases hy : messagesOf dflt j <;> simp_all
    rcases htypes with ⟨e0, h0, rfl⟩ | ⟨h0, h1⟩
    · obtain ⟨before, k, after, e', hs, hb, h2, rfl⟩ :=
        jsonToSchemaList_defect dflt _ e0 (importTypes_list.mp h0)
      have : j.get? "types" = some (.arr (before ++ k :: after)) := by
        cases ht : j.get? "types" with
        | none => rw [ht] at hs; simp at hs
        | some v =>
          rw [ht] at hs
          cases v <;> simp [Json.asArr] at hs
          rw [hs]
      exact .type this hb h2
    · have hok : ∀ l, j.get? "types" = some (.arr l) → ∀ x ∈ l, ImportableSchema x := by
        intro l hl
        rw [hl] at h0
        exact importTypes_isOk.mp h0
      unfold messagesOf at h1
      cases hm : j.get? "messages" with
      | none => rw [hm] at h1; cases h1
      | some v =>
        rw [hm] at h1
        cases v with
        | obj ms =>
          obtain ⟨before, name, k, after, e', rfl, hb, h2, rfl⟩ := importMessages_error.mp h1
          exact .message hok hm hb h2
        | _ => cases h1
  · obtain ⟨t, d⟩ := e
    simp only
    intro h
    cases h with
    | @type _ _ after _ _ ht hb h =>
      have := (importTypes_list (r := r)).mpr (jsonToSchemaList_bad (after := after) (defect_jsonToSchema h dflt) hb)
      simp only [typesOf, ht, Option.bind_some, Json.asArr, this]
      rfl
    | @message before name k after t' d' hok hm hb h =>
      have h0 : ∃ r', typesOf dflt j r = .ok r' := by
        unfold typesOf
        cases ht : j.get? "types" with
        | none => exact ⟨r, rfl⟩
        | some v =>
          cases v with
          | arr l => exact importTypes_isOk.mpr (hok l ht)
          | _ => exact ⟨r, rfl⟩
      obtain ⟨r', h0⟩ := h0
      have h1 := (importMessages_error (dflt := dflt)).mpr
        ⟨before, name, k, after, ⟨t', d⟩, rfl, hb, h, rfl⟩
      simp only [h0, messagesOf, hm, h1]
      rfl

end

end Avdl
