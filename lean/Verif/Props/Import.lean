import Verif.Lemmas.Hoist
import Verif.Lemmas.Json
import Verif.Lemmas.CompileTerm
import Verif.Props.Registry
import Verif.Spec.LogicalType
import Verif.Serialize
/-!
# C24, C34: importing JSON schemas

Nested definitions are hoisted into the registry, and primitives keep their type.
-/

namespace Avdl.Props
open Spec

/-! ### C24: hoisting -/

/-- **C24, the collected types.** Flattening a schema collects exactly the definitions occurring
in it, each with its nested definitions replaced by references, a definition after the
definitions inside it.  What is left of the schema itself is its outline.  None of the collected
types contains another definition. -/
theorem C24_collects (s : Schema) :
    ∃ defs : List Schema,
      (∀ t, t ∈ defs ↔ Defines s t) ∧
      (∀ before u after, defs = before ++ u :: after → ∀ t, Defines u t → t = u ∨ t ∈ before) ∧
      flattenSchema s = (defs.map outlineDef, outline s) ∧
      (∀ t ∈ (flattenSchema s).1, t.flatDef = true) ∧ (flattenSchema s).2.noDefs = true := by
  have h := flattenInner_eq s
  refine ⟨definitions s, fun t => mem_definitions, definitions_innerFirst s, h, ?_, ?_⟩
  · intro t ht
    simp only [flattenSchema, h, List.mem_map] at ht
    obtain ⟨u, hu, rfl⟩ := ht
    exact flatDef_outlineDef (mem_definitions.1 hu).isNamed
  · simp only [flattenSchema, h]; exact noDefs_outline s

/-- **C24, meaning.** Substituting collected definitions for references in what is left recovers
the schema. -/
theorem C24_recovers (s : Schema) :
    Expands (flattenSchema s).1 (flattenSchema s).2 s := by
  simp only [flattenSchema, flattenInner_eq s]
  exact expands_outline _ s fun t ht => List.mem_map.2 ⟨t, mem_definitions.2 ht, rfl⟩

theorem fullName?_outlineDef (s : Schema) : (outlineDef s).fullName? = s.fullName? := by
  cases s <;> rfl

theorem acceptable_outlineDef [CharTables] (s : Schema) :
    Acceptable (outlineDef s) ↔ Acceptable s := by
  cases s <;> simp only [outlineDef]
  constructor <;> rintro ⟨n, ns, h, h'⟩ <;> cases h <;> exact ⟨_, _, .record, h'⟩

theorem mem_firstAccepted [CharTables] {l : List Schema} {u : Schema} {full : String}
    (ha : Acceptable u) (hf : u.fullName? = some full)
    (huniq : ∀ v ∈ l, v.fullName? = some full → v = u) :
    ∀ {seen : List String}, u ∈ l → full ∉ seen → (full, u) ∈ firstAccepted seen l := by
  induction l with
  | nil => intro _ h; cases h
  | cons v l ih =>
    intro seen hu hs
    have ih' := @ih (fun w hw => huniq w (by simp [hw]))
    simp only [firstAccepted]
    by_cases hv : v.fullName? = some full
    · have := huniq v (by simp) hv
      subst this
      simp [hf, ha, hs]
    · have hu' : u ∈ l := by
        rcases List.mem_cons.1 hu with rfl | h
        · exact absurd hf hv
        · exact h
      cases hvn : v.fullName? with
      | none => exact ih' hu' hs
      | some fv =>
        simp only
        have hne : full ≠ fv := by rintro rfl; exact hv hvn
        split
        · exact List.mem_cons_of_mem _ (ih' hu' (by simp [hne, hs]))
        · exact ih' hu' hs

theorem firstAccepted_split [CharTables] {l : List Schema} :
    ∀ {seen : List String} {a b : List (String × Schema)} {k : String} {u : Schema},
      firstAccepted seen l = a ++ (k, u) :: b →
      ∃ l1 l2, l = l1 ++ u :: l2 ∧ a = firstAccepted seen l1 ∧ u.fullName? = some k := by
  induction l with
  | nil => intro seen a b k u h; simp [firstAccepted] at h
  | cons v l ih =>
    intro seen a b k u h
    simp only [firstAccepted] at h
    cases hvn : v.fullName? with
    | none =>
      simp only [hvn] at h
      obtain ⟨l1, l2, rfl, rfl, hk⟩ := ih h
      exact ⟨v :: l1, l2, by simp, by simp [firstAccepted, hvn], hk⟩
    | some fv =>
      simp only [hvn] at h
      split at h
      · rename_i hc
        cases a with
        | nil =>
          simp only [List.nil_append, List.cons.injEq, Prod.mk.injEq] at h
          obtain ⟨⟨rfl, rfl⟩, -⟩ := h
          exact ⟨[], l, by simp, by simp [firstAccepted], hvn⟩
        | cons x a =>
          simp only [List.cons_append, List.cons.injEq] at h
          obtain ⟨rfl, h⟩ := h
          obtain ⟨l1, l2, rfl, rfl, hk⟩ := ih h
          exact ⟨v :: l1, l2, by simp, by simp [firstAccepted, hvn, hc], hk⟩
      · rename_i hc
        obtain ⟨l1, l2, rfl, rfl, hk⟩ := ih h
        exact ⟨v :: l1, l2, by simp, by simp [firstAccepted, hvn, hc], hk⟩

/-- **C24, the registry.** If the definitions in an imported schema have legal names, none of them
is registered already, and no two different ones have the same name, then importing the schema
adds to the registry:

* every definition in it, under its full name, with nested definitions replaced by references;
* nothing else, and each entry after the entries of the definitions inside it;

no entry contains another definition, and substituting the new entries for references recovers
the schema.

Full property: without the three hypotheses.  It does not hold then, see `C24_fails_illegal` and
`C24_fails_duplicate`; what happens in general is `C24_registry_general`. -/
theorem C24_registry_partial [CharTables] (r : Registry) (s : Schema)
    (hok : ∀ t, Defines s t → Acceptable t)
    (hnew : ∀ t full, Defines s t → t.fullName? = some full → full ∉ r.names)
    (huniq : ∀ t u full, Defines s t → Defines s u →
      t.fullName? = some full → u.fullName? = some full → t = u) :
    ∃ new : Registry,
      flattenAndRegister r s = r ++ new ∧
      (∀ t, Defines s t → ∃ full, t.fullName? = some full ∧ (full, outlineDef t) ∈ new) ∧
      (∀ before name t' after, new = before ++ (name, t') :: after →
        t'.flatDef = true ∧
        ∃ t, Defines s t ∧ t' = outlineDef t ∧ t.fullName? = some name ∧
          ∀ u, Defines t u →
            u = t ∨ ∃ full, u.fullName? = some full ∧ (full, outlineDef u) ∈ before) ∧
      Expands (new.map Prod.snd) (outline s) s := by
  have hfull : ∀ t, Defines s t → ∃ full, t.fullName? = some full := by
    intro t ht
    have := ht.isNamed
    cases t <;> first | exact ⟨_, rfl⟩ | cases this
  have hmem : ∀ l1 : List Schema, (∀ t ∈ l1, Defines s t) → ∀ t ∈ l1,
      ∃ full, t.fullName? = some full ∧
        (full, outlineDef t) ∈ firstAccepted r.names (l1.map outlineDef) := by
    intro l1 hl t ht
    have hd := hl t ht
    obtain ⟨full, hf⟩ := hfull t hd
    refine ⟨full, hf, mem_firstAccepted ((acceptable_outlineDef t).2 (hok t hd))
      (by rw [fullName?_outlineDef, hf]) ?_ (List.mem_map.2 ⟨t, ht, rfl⟩) (hnew t full hd hf)⟩
    intro v hv hvf
    obtain ⟨w, hw, rfl⟩ := List.mem_map.1 hv
    rw [fullName?_outlineDef] at hvf
    rw [huniq w t full (hl w hw) hd hvf hf]
  have hall : ∀ t ∈ definitions s, Defines s t := fun t => mem_definitions.1
  refine ⟨firstAccepted r.names ((definitions s).map outlineDef), ?_, ?_, ?_, ?_⟩
  · rw [flattenAndRegister_eq, flattenSchema, flattenInner_eq s]
    exact (registerAll_from _ r).1
  · intro t ht
    exact hmem _ hall t (mem_definitions.2 ht)
  · intro before name t' after h
    obtain ⟨l1, l2, hl, rfl, hk⟩ := firstAccepted_split h
    obtain ⟨d1, d2, hd, rfl, h2⟩ := List.map_eq_append_iff.1 hl
    obtain ⟨t, d2', rfl, rfl, rfl⟩ := List.map_eq_cons_iff.1 h2
    have ht : Defines s t := hall t (by simp [hd])
    refine ⟨flatDef_outlineDef ht.isNamed, t, ht, rfl, by rwa [fullName?_outlineDef] at hk, ?_⟩
    intro u hu
    rcases definitions_innerFirst s d1 t d2' hd u hu with h | h
    · exact .inl h
    · exact .inr (hmem d1 (fun x hx => hall x (by simp [hd, hx])) u h)
  · refine expands_outline _ s fun t ht => ?_
    obtain ⟨full, -, hm⟩ := hmem _ hall t (mem_definitions.2 ht)
    exact List.mem_map.2 ⟨_, hm, rfl⟩

/-- **C24, in general.** Importing a schema adds flat definitions from the schema to the end of
the registry, and a definition with a legal name is missing afterwards only because another
definition has its name. -/
theorem C24_registry_general [CharTables] (r : Registry) (s : Schema) :
    ∃ new : Registry,
      flattenAndRegister r s = r ++ new ∧
      (∀ name t', (name, t') ∈ new →
        t'.flatDef = true ∧ name ∉ r.names ∧
        ∃ t, Defines s t ∧ t' = outlineDef t ∧ t.fullName? = some name) ∧
      (∀ t, Defines s t → Acceptable t →
        ∃ full, t.fullName? = some full ∧ full ∈ (r ++ new).map Prod.fst) := by
  have hsub : ∀ (l : List Schema) (seen : List String) x, x ∈ firstAccepted seen l →
      x.2 ∈ l ∧ x.2.fullName? = some x.1 ∧ x.1 ∉ seen := by
    intro l
    induction l with
    | nil => intro seen x hx; simp [firstAccepted] at hx
    | cons v l ih =>
      intro seen x hx
      simp only [firstAccepted] at hx
      cases hv : v.fullName? with
      | none =>
        simp only [hv] at hx
        have := ih _ _ hx
        exact ⟨by simp [this.1], this.2⟩
      | some fv =>
        simp only [hv] at hx
        split at hx
        · rename_i hc
          rcases List.mem_cons.1 hx with rfl | hx
          · exact ⟨by simp, hv, hc.2⟩
          · have := ih _ _ hx
            exact ⟨by simp [this.1], this.2.1, fun h => this.2.2 (by simp [h])⟩
        · have := ih _ _ hx
          exact ⟨by simp [this.1], this.2⟩
  have hcov : ∀ (l : List Schema) (seen : List String) t full, t ∈ l → Acceptable t →
      t.fullName? = some full → full ∈ seen ∨ full ∈ (firstAccepted seen l).map Prod.fst := by
    intro l
    induction l with
    | nil => intro seen t full h; cases h
    | cons v l ih =>
      intro seen t full ht ha hf
      simp only [firstAccepted]
      rcases List.mem_cons.1 ht with rfl | ht
      · simp only [hf, ha, true_and]
        split
        · simp
        · rename_i h; exact .inl (by simpa using h)
      · cases hv : v.fullName? with
        | none => exact ih seen t full ht ha hf
        | some fv =>
          simp only
          split
          · rcases ih (fv :: seen) t full ht ha hf with h | h
            · rcases List.mem_cons.1 h with rfl | h
              · right; simp
              · exact .inl h
            · right; simp only [List.map_cons, List.mem_cons]; exact .inr h
          · exact ih seen t full ht ha hf
  refine ⟨firstAccepted r.names ((definitions s).map outlineDef), ?_, ?_, ?_⟩
  · rw [flattenAndRegister_eq, flattenSchema, flattenInner_eq s]
    exact (registerAll_from _ r).1
  · intro name t' h
    obtain ⟨h1, h2, h3⟩ := hsub _ _ _ h
    obtain ⟨t, ht, rfl⟩ := List.mem_map.1 h1
    exact ⟨flatDef_outlineDef (mem_definitions.1 ht).isNamed, h3, t, mem_definitions.1 ht, rfl,
      by rwa [fullName?_outlineDef] at h2⟩
  · intro t ht ha
    have : ∃ full, t.fullName? = some full := by
      have := ht.isNamed
      cases t <;> first | exact ⟨_, rfl⟩ | cases this
    obtain ⟨full, hf⟩ := this
    refine ⟨full, hf, ?_⟩
    rw [List.map_append, List.mem_append]
    exact hcov _ _ (outlineDef t) full (List.mem_map.2 ⟨t, mem_definitions.2 ht, rfl⟩)
      ((acceptable_outlineDef t).2 ha) (by rw [fullName?_outlineDef, hf])

section Examples
attribute [local instance] asciiTables

/-- `{"type":"record","name":"n.Outer","fields":[{"name":"a","type":{"type":"array","items":
{"type":"record","name":"Mid","fields":[{"name":"e","type":{"type":"enum",...}}]}}}]}`. -/
def exEnum : Schema := .enum "E" (some "n") none ["A"] none [] []
def exMid : Schema :=
  .record "Mid" (some "n") none [.mk "e" exEnum none none none [] []] false [] []
def exOuter : Schema :=
  .record "Outer" (some "n") none
    [.mk "a" (.array exMid []) none none none [] [],
     .mk "b" (.union [.prim .null, .ref "Mid" (some "n") [] none] false) none none none [] []]
    false [] []

/-- Three levels of nesting: registered inner first, with references in place of definitions. -/
example : (flattenAndRegister [] exOuter).map Prod.fst = ["n.E", "n.Mid", "n.Outer"] := by
  decide

example : Defines exOuter exEnum :=
  .field (f := .mk "a" (.array exMid []) none none none [] []) (.head _)
    (.items (.field (f := .mk "e" exEnum none none none [] []) (.head _) (.here trivial)))

/-- The hypotheses of `C24_registry_partial` hold for the example. -/
example : (∀ t, Defines exOuter t → Acceptable t) ∧
    (∀ t full, Defines exOuter t → t.fullName? = some full → full ∉ Registry.names []) ∧
    (∀ t u full, Defines exOuter t → Defines exOuter u →
      t.fullName? = some full → u.fullName? = some full → t = u) := by
  have hd : definitions exOuter = [exEnum, exMid, exOuter] := rfl
  refine ⟨?_, ?_, ?_⟩
  · intro t ht
    have := mem_definitions.2 ht
    rw [hd] at this
    have hr : ∀ t ∈ [exEnum, exMid, exOuter], ∃ r', Registry.register [] t = .ok r' := by
      intro t ht
      simp only [List.mem_cons, List.not_mem_nil, or_false] at ht
      rcases ht with rfl | rfl | rfl <;> exact ⟨_, rfl⟩
    obtain ⟨r', h⟩ := hr t this
    exact ((register_ok_iff _ _ _).1 h).1
  · intro t full _ _ h; simp [Registry.names] at h
  · intro t u full ht hu h1 h2
    have ht := mem_definitions.2 ht
    have hu := mem_definitions.2 hu
    rw [hd] at ht hu
    simp only [List.mem_cons, List.not_mem_nil, or_false] at ht hu
    rcases ht with rfl | rfl | rfl <;> rcases hu with rfl | rfl | rfl <;>
      first | rfl | (rw [← h1] at h2; revert h2; decide)

/-- A record whose field defines an enum with an illegal name. -/
def exIllegal : Schema :=
  .record "R" none none
    [.mk "a" (.enum "bad-name" none none ["A"] none [] []) none none none [] []] false [] []

/-- **C24 fails, illegal names.** A nested type with an illegal name is dropped without an error;
the reference to it stays. -/
theorem C24_fails_illegal :
    Defines exIllegal (.enum "bad-name" none none ["A"] none [] []) ∧
    (flattenAndRegister [] exIllegal).map Prod.fst = ["R"] :=
  ⟨.field (.head _) (.here trivial), by decide⟩

/-- A record that defines the enum `E` twice, differently. -/
def exTwice : Schema :=
  .record "R" none none
    [.mk "a" (.enum "E" none none ["A"] none [] []) none none none [] [],
     .mk "b" (.enum "E" none none ["B"] none [] []) none none none [] []] false [] []

/-- **C24 fails, duplicates.** Of two different nested definitions with the same name the second
is dropped without an error, and the field that used it now refers to the first. -/
theorem C24_fails_duplicate :
    Defines exTwice (.enum "E" none none ["B"] none [] []) ∧
    flattenAndRegister [] exTwice =
      [("E", .enum "E" none none ["A"] none [] []),
       ("R", .record "R" none none
          [.mk "a" (.ref "E" none [] none) none none none [] [],
           .mk "b" (.ref "E" none [] none) none none none [] []] false [] [])] :=
  ⟨.field (.tail _ (.head _)) (.here trivial), rfl⟩

end Examples

/-! ### C34: base types -/

/-- The JSON value is a schema whose type is the primitive. -/
def IsPrimitive (p : Prim) : Json → Prop
  | .str s => s = p.asStr
  | .obj m => JMap.get? m "type" = some (.str p.asStr)
  | _ => False

theorem parseLogicalType_base {n : String} {p s : Option Nat} {lt : LogicalType}
    (h : parseLogicalType n p s = some lt) : (n, lt.base) ∈ logicalBases := by
  simp only [parseLogicalType] at h
  repeat' split at h
  all_goals first
    | (injection h with h; subst h; simp [logicalBases, LogicalType.base, *])
    | cases h

theorem collectExtra_avoids {obj : JMap} {known : List String} {k : String} (hk : k ∈ known) :
    ∀ x ∈ collectExtra obj known, x.1 ≠ k := by
  rintro x hx rfl
  simp [collectExtra] at hx
  exact hx.2 hk

theorem isPrimitive_logicalObj (lt : LogicalType) (obj : JMap) :
    IsPrimitive lt.base (.obj (logicalObj lt (collectExtra obj logicalKeys))) := by
  have h0 : ∀ m : JMap, JMap.get? m "type" = some (.str lt.base.asStr) →
      JMap.get? (m.insertAll (collectExtra obj logicalKeys)) "type" =
        some (.str lt.base.asStr) := by
    intro m hm
    rw [JMap.get?_insertAll_of_notin _ _ (collectExtra_avoids (by decide)), hm]
  simp only [IsPrimitive, logicalObj]
  apply h0
  cases lt <;> simp [JMap.get?_insert]

theorem jsonToSchema_prim (dflt : Option String) (obj : JMap) (p : Prim)
    (hty : getStr obj "type" = some p.asStr) :
    jsonToSchema dflt (.obj obj) = parseAnnotatedPrimitive obj p := by
  simp only [jsonToSchema, hty]
  cases p <;> rfl

/-- **C34 (partial).** Import an object whose `type` is a primitive.  If its `logicalType`, when it
is one of the known logical types, has this primitive as base, then re-exporting the imported
schema gives the same primitive.

Full property: without the condition on `logicalType`.  It does not hold then:
`C34_fails_base_replaced`. -/
theorem C34_base_kept_partial (dflt : Option String) (obj : JMap) (p : Prim) (s : Schema)
    (hty : JMap.get? obj "type" = some (.str p.asStr))
    (hfit : ∀ n q, JMap.get? obj "logicalType" = some (.str n) → (n, q) ∈ logicalBases → q = p)
    (himp : jsonToSchema dflt (.obj obj) = .ok s)
    (lk : Lookup) (fuel : Nat) (encl : Option String) (known known' : Known) (j : Json)
    (hexp : schemaToJson lk (fuel + 1) s encl known = some (j, known')) :
    IsPrimitive p j := by
  have hty' : getStr obj "type" = some p.asStr := by simp [getStr, hty, Json.asStr]
  rw [jsonToSchema_prim dflt obj p hty'] at himp
  have hann : IsPrimitive p
      (.obj ((JMap.insert "type" (.str p.asStr) []).insertAll (collectExtra obj ["type"]))) := by
    simp only [IsPrimitive]
    rw [JMap.get?_insertAll_of_notin _ _ (collectExtra_avoids (by decide))]
    simp [JMap.get?_insert]
  simp only [parseAnnotatedPrimitive] at himp
  cases hl : getStr obj "logicalType" with
  | none =>
    simp only [hl] at himp
    split at himp <;> injection himp with himp <;> subst himp <;>
      simp only [schemaToJson, Option.some.injEq, Prod.mk.injEq] at hexp <;>
      obtain ⟨rfl, -⟩ := hexp
    · rfl
    · exact hann
  | some n =>
    have hn : JMap.get? obj "logicalType" = some (.str n) := by
      simp only [getStr] at hl
      cases hg : JMap.get? obj "logicalType" with
      | none => simp [hg] at hl
      | some v => cases v <;> simp_all [Json.asStr]
    simp only [hl] at himp
    have hlog : ∀ lt, parseLogicalType n ((getU64 obj "precision").bind toU32?)
        ((getU64 obj "scale").bind toU32?) = some lt →
        IsPrimitive p (.obj (logicalObj lt (collectExtra obj logicalKeys))) := by
      intro lt h
      rw [← hfit n lt.base hn (parseLogicalType_base h)]
      exact isPrimitive_logicalObj lt obj
    split at himp
    · rename_i h
      split at himp
      · cases himp
      · injection himp with himp
        subst himp
        simp only [schemaToJson, Option.some.injEq, Prod.mk.injEq] at hexp
        obtain ⟨rfl, -⟩ := hexp
        exact hlog _ h
    · rename_i lt _ h
      injection himp with himp
      subst himp
      simp only [schemaToJson, Option.some.injEq, Prod.mk.injEq] at hexp
      obtain ⟨rfl, -⟩ := hexp
      exact hlog _ h
    · injection himp with himp
      subst himp
      simp only [schemaToJson, Option.some.injEq, Prod.mk.injEq] at hexp
      obtain ⟨rfl, -⟩ := hexp
      exact hann

/-- **C34 fails.** For every known logical type other than `decimal` and every primitive, the
imported schema is exported with the base type of the logical type, whatever its own type was. -/
theorem C34_fails_base_replaced (dflt : Option String) (p : Prim) (n : String) (q : Prim)
    (hn : (n, q) ∈ logicalBases) (hd : n ≠ "decimal") (lk : Lookup) (fuel : Nat)
    (encl : Option String) (known : Known) :
    ∃ s j, jsonToSchema dflt (.obj [("logicalType", .str n), ("type", .str p.asStr)]) = .ok s ∧
      schemaToJson lk (fuel + 1) s encl known = some (j, known) ∧ IsPrimitive q j := by
  rw [jsonToSchema_prim dflt _ p rfl]
  simp only [logicalBases, List.mem_cons, Prod.mk.injEq, List.not_mem_nil, or_false] at hn
  rcases hn with ⟨rfl, rfl⟩ | ⟨rfl, rfl⟩ | ⟨rfl, rfl⟩ | ⟨rfl, rfl⟩ | ⟨rfl, rfl⟩ | ⟨rfl, rfl⟩ |
    ⟨rfl, rfl⟩ | ⟨rfl, rfl⟩ | ⟨rfl, rfl⟩
  all_goals first
    | exact ⟨_, _, rfl, rfl, rfl⟩
    | exact absurd rfl hd

/-- `{"type":"long","logicalType":"timestamp-millis","x":1}` meets the hypotheses. -/
example : (∀ n q, JMap.get? [("logicalType", .str "timestamp-millis"), ("type", .str "long"),
      ("x", .num (.int 1))] "logicalType" = some (.str n) → (n, q) ∈ logicalBases →
      q = Prim.long) ∧
    ∃ s, jsonToSchema none (.obj [("logicalType", .str "timestamp-millis"), ("type", .str "long"),
      ("x", .num (.int 1))]) = .ok s := by
  refine ⟨?_, _, rfl⟩
  intro n q h hn
  simp [JMap.get?] at h
  subst h
  simpa [logicalBases] using hn

end Avdl.Props
