import Verif.Lemmas.OnePass
/-! The serializer's output, read by the one-pass specification. -/

namespace Avdl

open Spec

theorem prim_mem (p : Prim) : p.asStr ∈ Spec.primitives := by cases p <;> decide

theorem primitives_eq : Spec.primitives = primitiveTypeNames := rfl

theorem primitives_dotfree {s : String} (h : s ∈ primitiveTypeNames) : DotFree s := by
  unfold primitiveTypeNames at h
  simp only [List.mem_cons, List.not_mem_nil, or_false] at h
  rcases h with rfl | rfl | rfl | rfl | rfl | rfl | rfl | rfl <;> decide

theorem not_schemaTypeName_not_prim {n : String} (h : isSchemaTypeName n = false) :
    n ∉ primitiveTypeNames := by
  intro hm
  unfold isSchemaTypeName at h
  simp [hm] at h

/-- A dotted full name resolves to itself. -/
theorem resolve_full {e n ns : String} (h : ns ≠ "") :
    resolveName e (makeFullName n (some ns)) = makeFullName n (some ns) := by
  unfold resolveName
  rw [makeFullName_toList h]
  simp

theorem full_not_prim {n ns : String} (h : ns ≠ "") :
    makeFullName n (some ns) ∉ primitiveTypeNames := by
  intro hm
  have := primitives_dotfree hm
  unfold DotFree at this
  rw [makeFullName_toList h] at this
  simp at this

theorem events_ref {n : String} {ns encl : Option String} (h : RefOk (nsStr encl) n ns) :
    events (nsStr encl) (.str (schemaRefName n ns encl)) = [.use (makeFullName n ns)] := by
  obtain ⟨hd, hp, he⟩ := h
  have full : events (nsStr encl) (.str (makeFullName n ns)) = [.use (makeFullName n ns)] := by
    by_cases hns : nsStr ns = ""
    · have h1 : makeFullName n ns = n := by rw [makeFullName_nsStr, hns, makeFullName_empty]
      rw [h1, he hns]
      unfold DotFree at hd
      simp [events, primitives_eq, hp hns, resolveName, hd, qualify]
    · have h1 := full_not_prim (n := n) hns
      have h2 := resolve_full (e := nsStr encl) (n := n) hns
      rw [← makeFullName_nsStr] at h1 h2
      simp [events, primitives_eq, h1, h2]
  unfold schemaRefName
  split
  · rename_i hns
    split
    · exact full
    · rename_i hk
      have hnp := not_schemaTypeName_not_prim (by simpa using hk)
      subst hns
      unfold DotFree at hd
      simp [events, primitives_eq, hnp, resolveName, hd, qualify_eq_makeFullName]
  · exact full

theorem eventsList_eq (e : String) (l : List Json) : eventsList e l = l.flatMap (events e) := by
  induction l with
  | nil => rfl
  | cons j js ih => simp [eventsList, ih]

theorem fieldsEventsList_eq (e : String) (l : List Json) :
    fieldsEventsList e l = l.flatMap (fieldEvents e) := by
  induction l with
  | nil => rfl
  | cons j js ih => simp [fieldsEventsList, ih]

theorem run_mapAccum {α β : Type} (f : α → Known → Option (β × Known)) (ev : β → List Ev)
    {l : List α} (H : ∀ a ∈ l, ∀ K b K', f a K = some (b, K') → run (ev b) K = some K')
    {K K' : Known} {bs : List β} (h : mapAccum f l K = some (bs, K')) :
    run (bs.flatMap ev) K = some K' := by
  induction l generalizing K bs with
  | nil => simp only [mapAccum, Option.some.injEq, Prod.mk.injEq] at h; simp [← h.1, ← h.2, run]
  | cons a as ih =>
    simp only [mapAccum] at h
    cases h1 : f a K with
    | none => rw [h1] at h; cases h
    | some bk =>
      obtain ⟨b, K1⟩ := bk
      rw [h1] at h
      simp only at h
      cases h2 : mapAccum f as K1 with
      | none => rw [h2] at h; cases h
      | some bk2 =>
        obtain ⟨bs2, K2⟩ := bk2
        rw [h2] at h
        simp only [Option.some.injEq, Prod.mk.injEq] at h
        obtain ⟨rfl, rfl⟩ := h
        rw [List.flatMap_cons, run_append, H a (by simp) K b K1 h1]
        exact ih (fun a ha => H a (List.mem_cons_of_mem _ ha)) h2

theorem get?_insertAll_avoid {m : JMap} {ps : Props} {keys : List String} (h : ps.Avoids keys)
    {k : String} (hk : k ∈ keys) : (m.insertAll ps).get? k = m.get? k :=
  JMap.get?_insertAll_of_notin m ps fun x hx he => h x hx (he ▸ hk)

theorem get?_fieldObj (f : Field) (j : Json) (h : OutField f) :
    (fieldObj f j).get? "type" = some j := by
  unfold fieldObj orderEntry
  rw [get?_insertAll_avoid h (by decide)]
  cases f.doc <;> cases f.default <;> cases f.order <;> (try cases ‹FieldOrder›) <;>
    simp only [] <;> split <;> simp [JMap.get?_insert]

/-- The `namespace` entry written by the preamble. -/
def nsEntry (ns encl : Option String) : Option Json :=
  match ns with
  | some x => if ns ≠ encl ∧ ¬ (x = "" ∧ encl = none) then some (.str x) else none
  | none => none

/-- What the preamble writes. -/
theorem preamble_ok {t n : String} {ns doc encl : Option String} {K K1 : Known} {obj : JMap}
    (h : namedTypePreamble t n ns doc K encl = .ok (obj, K1)) :
    makeFullName n ns ∉ K ∧ K1 = makeFullName n ns :: K ∧
    obj.get? "type" = some (.str t) ∧ obj.get? "name" = some (.str n) ∧
    obj.get? "namespace" =
      nsEntry ns encl ∧
    obj.get? "doc" = doc.map .str := by
  unfold nsEntry
  unfold namedTypePreamble at h
  simp only at h
  split at h
  · cases h
  · rename_i hk
    simp only [Except.ok.injEq, Prod.mk.injEq] at h
    obtain ⟨rfl, rfl⟩ := h
    refine ⟨by simpa using hk, rfl, ?_, ?_, ?_, ?_⟩ <;>
    (cases ns <;> cases doc <;> simp only [] <;> (repeat' split) <;>
      simp_all [JMap.get?_insert, JMap.get?])

theorem preamble_error {t n : String} {ns doc encl : Option String} {K : Known} {j : Json}
    (h : namedTypePreamble t n ns doc K encl = .error j) :
    makeFullName n ns ∈ K ∧ j = .str (schemaRefName n ns encl) := by
  unfold namedTypePreamble at h
  simp only at h
  split at h
  · rename_i hk
    simp only [Except.error.injEq] at h
    exact ⟨by simpa using hk, h.symm⟩
  · cases h

theorem finish_get? {obj : JMap} {ps : Props} {al : List String} {ns : Option String}
    {keys : List String} (hps : ps.Avoids keys) {k : String} (hk : k ∈ keys) (hal : k ≠ "aliases") :
    (finishNamedType obj ps al ns).get? k = obj.get? k := by
  unfold finishNamedType
  simp only
  split
  · exact get?_insertAll_avoid hps hk
  · rw [JMap.get?_insert_ne _ _ hal, get?_insertAll_avoid hps hk]

/-- Name and namespace of an emitted definition, as read by the specification. -/
theorem defName_eq {m : JMap} {n : String} {ns encl : Option String} (hd : DotFree n)
    (hns : ns = none → nsStr encl = "") (hname : m.get? "name" = some (.str n))
    (hnsp : m.get? "namespace" =
      nsEntry ns encl) :
    defName (nsStr encl) m = (makeFullName n ns, nsStr ns) := by
  unfold nsEntry at hnsp
  unfold defName strAttr
  rw [attr_eq_get?, attr_eq_get?, hname, hnsp]
  unfold DotFree at hd
  simp only [hd, if_false]
  cases ns with
  | none =>
    simp only
    rw [hns rfl]
    rfl
  | some x =>
    simp only
    by_cases hc : some x ≠ encl ∧ ¬ (x = "" ∧ encl = none)
    · rw [if_pos hc]
      exact Prod.ext (qualify_eq_makeFullName (some x) n) rfl
    · rw [if_neg hc]
      have : nsStr encl = x := by
        by_cases h1 : some x = encl
        · rw [← h1]; rfl
        · have h2 := Decidable.not_not.mp fun h => hc ⟨h1, h⟩
          rw [h2.1, h2.2]; rfl
      simp only
      rw [this]
      exact Prod.ext (qualify_eq_makeFullName (some x) n) rfl

/-- The lookup table is sound: it maps a name to a definition of that very name, whose nodes
satisfy the output conditions in the type's own namespace. -/
def LookupOk (lk : Lookup) : Prop :=
  ∀ full t, lk.get? full = some t →
    t.IsNamed ∧ t.fullName? = some full ∧ t.OutOk (fun x => (lk.get? x).isSome) (nsStr t.nsOf)

abbrev Lookup.Has (lk : Lookup) : String → Prop := fun x => (lk.get? x).isSome

theorem innerNs_eq {ns : Option String} {e : String} (h : ns = none → e = "") :
    innerNs ns e = nsStr ns := by
  cases ns with
  | none => simp [innerNs, nsStr, h rfl]
  | some x => rfl

theorem nsStr_or (ns encl : Option String) : nsStr (ns.or encl) = innerNs ns (nsStr encl) := by
  cases ns <;> rfl

theorem ser_events (lk : Lookup) (hlk : LookupOk lk) (n : Nat) :
    (∀ s encl K j K', s.OutOk lk.Has (nsStr encl) →
      schemaToJson lk n s encl K = some (j, K') → run (events (nsStr encl) j) K = some K') ∧
    (∀ s encl K j K', s.IsNamed → s.OutOk lk.Has (nsStr s.nsOf) →
      (s.nsOf = none → nsStr encl = "") → (∀ full, s.fullName? = some full → full ∉ K) →
      schemaToJson lk n s encl K = some (j, K') → run (events (nsStr encl) j) K = some K') := by
  induction n with
  | zero => constructor <;> intros <;> simp [schemaToJson] at *
  | succ n ih =>
    have part2 : ∀ s encl K j K', s.IsNamed → s.OutOk lk.Has (nsStr s.nsOf) →
      (s.nsOf = none → nsStr encl = "") → (∀ full, s.fullName? = some full → full ∉ K) →
      schemaToJson lk (n+1) s encl K = some (j, K') →
        run (events (nsStr encl) j) K = some K' := by
      intro s encl K j K' hnamed hok hns hK h
      cases s with
      | record nm ns doc fs er al ps =>
        simp only [schemaToJson] at h
        simp only [Schema.OutOk, Schema.Everywhere, Schema.nsOf] at hok hns
        obtain ⟨⟨⟨hd, -, -⟩, hps⟩, hfs⟩ := hok
        have hin : innerNs ns (nsStr ns) = nsStr ns := by cases ns <;> rfl
        rw [hin] at hfs
        cases hpre : namedTypePreamble (if er = true then "error" else "record") nm ns doc K encl with
        | error bare =>
          have := preamble_error hpre
          exact absurd this.1 (hK _ rfl)
        | ok okv =>
          obtain ⟨obj, K1⟩ := okv
          rw [hpre] at h
          simp only at h
          obtain ⟨hnot, rfl, htype, hname, hnsp, -⟩ := preamble_ok hpre
          cases hma : mapAccum (fieldToJson fun s k => schemaToJson lk n s (ns.or encl) k) fs
              (makeFullName nm ns :: K) with
          | none => rw [hma] at h; cases h
          | some r =>
            obtain ⟨fj, K2⟩ := r
            rw [hma] at h
            simp only [Option.some.injEq, Prod.mk.injEq] at h
            obtain ⟨rfl, rfl⟩ := h
            have hinner : nsStr (ns.or encl) = nsStr ns := by rw [nsStr_or, innerNs_eq hns]
            have hfields : run (fj.flatMap (fieldEvents (nsStr ns))) (makeFullName nm ns :: K)
                = some K2 := by
              apply run_mapAccum _ _ _ hma
              intro f hf K b K' hfb
              cases hs : schemaToJson lk n f.schema (ns.or encl) K with
              | none => simp [fieldToJson, hs] at hfb
              | some r =>
                obtain ⟨j, K1⟩ := r
                simp only [fieldToJson, hs, Option.some.injEq, Prod.mk.injEq] at hfb
                obtain ⟨rfl, rfl⟩ := hfb
                have hf' := (Schema.everywhereF_iff fs).mp hfs f hf
                simp only [fieldEvents, eventsAttr_eq, get?_fieldObj f j hf'.1, Option.map_some,
                  Option.getD_some]
                have := ih.1 f.schema (ns.or encl) K j K1 (by rw [hinner]; exact hf'.2) hs
                rwa [hinner] at this
            have hev : events (nsStr encl) (.obj (finishNamedType (JMap.insert "fields" (.arr fj) obj) ps al ns))
                = .defn (makeFullName nm ns) :: fj.flatMap (fieldEvents (nsStr ns)) := by
              have ht : (finishNamedType (JMap.insert "fields" (.arr fj) obj) ps al ns).get? "type"
                  = some (.str (if er = true then "error" else "record")) := by
                rw [finish_get? hps (by decide) (by decide), JMap.get?_insert_ne _ _ (by decide), htype]
              have hn2 : (finishNamedType (JMap.insert "fields" (.arr fj) obj) ps al ns).get? "name"
                  = some (.str nm) := by
                rw [finish_get? hps (by decide) (by decide), JMap.get?_insert_ne _ _ (by decide), hname]
              have hns2 := hnsp
              rw [← JMap.get?_insert_ne obj (k := "fields") (.arr fj) (by decide : "namespace" ≠ "fields"),
                ← finish_get? (al := al) (ns := ns) hps (by decide) (by decide)] at hns2
              have hdef := defName_eq (encl := encl) hd hns hn2 hns2
              have hf2 : (finishNamedType (JMap.insert "fields" (.arr fj) obj) ps al ns).get? "fields"
                  = some (.arr fj) := by
                rw [finish_get? hps (by decide) (by decide), JMap.get?_insert_self]
              simp only [events, strAttr, attr_eq_get?, ht]
              cases er <;> simp [hdef, fieldsAttr_eq, hf2, fieldsEvents, fieldsEventsList_eq]
            rw [hev]
            simp only [run, hnot, if_false]
            exact hfields
      | enum nm ns doc sy df al ps =>
        simp only [schemaToJson] at h
        simp only [Schema.OutOk, Schema.Everywhere, Schema.nsOf] at hok hns
        obtain ⟨⟨hd, -, -⟩, hps⟩ := hok
        cases hpre : namedTypePreamble "enum" nm ns doc K encl with
        | error bare =>
          have := preamble_error hpre
          exact absurd this.1 (hK _ rfl)
        | ok okv =>
          obtain ⟨obj, K1⟩ := okv
          rw [hpre] at h
          simp only [Option.some.injEq, Prod.mk.injEq] at h
          obtain ⟨hnot, rfl, htype, hname, hnsp, -⟩ := preamble_ok hpre
          obtain ⟨rfl, rfl⟩ := h
          have hg : ∀ k, k ∈ ["type", "name", "namespace"] →
              (finishNamedType (enumObj sy df obj) ps al ns).get? k = obj.get? k := by
            intro k hk
            have : k ∈ ["type", "name", "namespace", "doc", "symbols", "default", "aliases"] ∧
                k ≠ "aliases" ∧ k ≠ "symbols" ∧ k ≠ "default" := by
              simp only [List.mem_cons, List.not_mem_nil, or_false] at hk
              rcases hk with rfl | rfl | rfl <;> decide
            rw [finish_get? hps this.1 this.2.1]
            unfold enumObj
            cases df <;> simp [JMap.get?_insert, this]
          have hdef := defName_eq (encl := encl) (m := finishNamedType (enumObj sy df obj) ps al ns)
            hd hns (by rw [hg _ (by decide), hname]) (by rw [hg _ (by decide), hnsp])
          simp [events, strAttr, attr_eq_get?, hg, htype, hdef, run, hnot]
      | fixed nm ns doc sz al ps =>
        simp only [schemaToJson] at h
        simp only [Schema.OutOk, Schema.Everywhere, Schema.nsOf] at hok hns
        obtain ⟨⟨hd, -, -⟩, hps⟩ := hok
        cases hpre : namedTypePreamble "fixed" nm ns doc K encl with
        | error bare =>
          have := preamble_error hpre
          exact absurd this.1 (hK _ rfl)
        | ok okv =>
          obtain ⟨obj, K1⟩ := okv
          rw [hpre] at h
          simp only [Option.some.injEq, Prod.mk.injEq] at h
          obtain ⟨hnot, rfl, htype, hname, hnsp, -⟩ := preamble_ok hpre
          obtain ⟨rfl, rfl⟩ := h
          have hg : ∀ k, k ∈ ["type", "name", "namespace"] →
              (finishNamedType (JMap.insert "size" (.num (.int sz)) obj) ps al ns).get? k
                = obj.get? k := by
            intro k hk
            have : k ∈ ["type", "name", "namespace", "doc", "size", "aliases"] ∧
                k ≠ "aliases" ∧ k ≠ "size" := by
              simp only [List.mem_cons, List.not_mem_nil, or_false] at hk
              rcases hk with rfl | rfl | rfl <;> decide
            rw [finish_get? hps this.1 this.2.1]
            simp [JMap.get?_insert, this]
          have hdef := defName_eq (encl := encl)
            (m := finishNamedType (JMap.insert "size" (.num (.int sz)) obj) ps al ns)
            hd hns (by rw [hg _ (by decide), hname]) (by rw [hg _ (by decide), hnsp])
          simp [events, strAttr, attr_eq_get?, hg, htype, hdef, run, hnot]
      | _ => exact absurd hnamed (by simp [Schema.IsNamed])
    refine ⟨?_, part2⟩
    intro s encl K j K' hok h
    -- a named definition in nested position
    have named : ∀ nm ns, s.IsNamed → s.nsOf = ns → s.fullName? = some (makeFullName nm ns) →
        RefOk (nsStr encl) nm ns → s.OutOk lk.Has (nsStr ns) →
        (makeFullName nm ns ∈ K → schemaToJson lk (n+1) s encl K =
          some (.str (schemaRefName nm ns encl), K)) →
        run (events (nsStr encl) j) K = some K' := by
      intro nm ns h1 h2 h3 hr hok' hbare
      by_cases hk : makeFullName nm ns ∈ K
      · rw [hbare hk] at h
        simp only [Option.some.injEq, Prod.mk.injEq] at h
        obtain ⟨rfl, rfl⟩ := h
        rw [events_ref hr]
        simp [run, hk]
      · refine part2 s encl K j K' h1 (by rw [h2]; exact hok') ?_ ?_ h
        · intro hnone
          rw [h2] at hnone
          exact hr.2.2 (by rw [hnone]; rfl)
        · intro full hfull
          rw [h3] at hfull
          cases hfull
          exact hk
    cases s with
    | prim p =>
      simp only [schemaToJson, Option.some.injEq, Prod.mk.injEq] at h
      obtain ⟨rfl, rfl⟩ := h
      simp [events, prim_mem, run]
    | annotated k ps =>
      simp only [schemaToJson, Option.some.injEq, Prod.mk.injEq] at h
      obtain ⟨rfl, rfl⟩ := h
      have hps : ps.Avoids ["type"] := hok
      have ht : ((JMap.insert "type" (.str k.asStr) []).insertAll ps).get? "type" = some (.str k.asStr) := by
        rw [get?_insertAll_avoid hps (by decide), JMap.get?_insert_self]
      simp only [events, strAttr, attr_eq_get?, ht]
      cases k <;> simp [Prim.asStr, run]
    | logical lt ps =>
      simp only [schemaToJson, Option.some.injEq, Prod.mk.injEq] at h
      obtain ⟨rfl, rfl⟩ := h
      have hps : ps.Avoids ["type"] := hok
      have ht : (logicalObj lt ps).get? "type" = some (.str lt.base.asStr) := by
        unfold logicalObj
        rw [get?_insertAll_avoid hps (by decide)]
        cases lt <;> simp [JMap.get?_insert]
      simp only [events, strAttr, attr_eq_get?, ht]
      cases lt <;> simp [LogicalType.base, Prim.asStr, run]
    | array i ps =>
      simp only [schemaToJson] at h
      obtain ⟨hps, hi⟩ := hok
      replace hps : ps.Avoids ["type", "items"] := hps
      cases hs : schemaToJson lk n i encl K with
      | none => rw [hs] at h; cases h
      | some r =>
        obtain ⟨j1, K1⟩ := r
        rw [hs] at h
        simp only [Option.some.injEq, Prod.mk.injEq] at h
        obtain ⟨rfl, rfl⟩ := h
        have ht : ((JMap.insert "items" j1 (JMap.insert "type" (.str "array") [])).insertAll ps).get? "type"
            = some (.str "array") := by
          rw [get?_insertAll_avoid hps (by decide)]; simp [JMap.get?_insert]
        have hi2 : ((JMap.insert "items" j1 (JMap.insert "type" (.str "array") [])).insertAll ps).get? "items"
            = some j1 := by
          rw [get?_insertAll_avoid hps (by decide)]; simp [JMap.get?_insert]
        simp only [events, strAttr, attr_eq_get?, ht, eventsAttr_eq, hi2, Option.map_some,
          Option.getD_some]
        exact ih.1 i encl K j1 K1 hi hs
    | map i ps =>
      simp only [schemaToJson] at h
      obtain ⟨hps, hi⟩ := hok
      replace hps : ps.Avoids ["type", "values"] := hps
      cases hs : schemaToJson lk n i encl K with
      | none => rw [hs] at h; cases h
      | some r =>
        obtain ⟨j1, K1⟩ := r
        rw [hs] at h
        simp only [Option.some.injEq, Prod.mk.injEq] at h
        obtain ⟨rfl, rfl⟩ := h
        have ht : ((JMap.insert "values" j1 (JMap.insert "type" (.str "map") [])).insertAll ps).get? "type"
            = some (.str "map") := by
          rw [get?_insertAll_avoid hps (by decide)]; simp [JMap.get?_insert]
        have hi2 : ((JMap.insert "values" j1 (JMap.insert "type" (.str "map") [])).insertAll ps).get? "values"
            = some j1 := by
          rw [get?_insertAll_avoid hps (by decide)]; simp [JMap.get?_insert]
        simp only [events, strAttr, attr_eq_get?, ht, eventsAttr_eq, hi2, Option.map_some,
          Option.getD_some]
        exact ih.1 i encl K j1 K1 hi hs
    | union ts b =>
      simp only [schemaToJson] at h
      obtain ⟨-, hts⟩ := hok
      cases hs : mapAccum (fun s k => schemaToJson lk n s encl k) ts K with
      | none => rw [hs] at h; cases h
      | some r =>
        obtain ⟨js, K1⟩ := r
        rw [hs] at h
        simp only [Option.some.injEq, Prod.mk.injEq] at h
        obtain ⟨rfl, rfl⟩ := h
        simp only [events, eventsList_eq]
        apply run_mapAccum _ _ _ hs
        intro t ht K b K' hb
        exact ih.1 t encl K b K' ((Schema.everywhereL_iff ts).mp hts t ht) hb
    | ref nm ns ps sp =>
      obtain ⟨hr, hknown⟩ := hok
      simp only [schemaToJson] at h
      split at h
      · rename_i hk
        simp only [Option.some.injEq, Prod.mk.injEq] at h
        obtain ⟨rfl, rfl⟩ := h
        rw [events_ref hr]
        simp only [List.contains_iff_mem] at hk
        simp [run, hk]
      · rename_i hk
        simp only [List.contains_iff_mem] at hk
        cases hl : lk.get? (makeFullName nm ns) with
        | none =>
          have : (lk.get? (makeFullName nm ns)).isSome = true := hknown
          rw [hl] at this
          cases this
        | some t =>
          rw [hl] at h
          simp only at h
          obtain ⟨htn, hfull, hokt⟩ := hlk _ _ hl
          refine ih.2 t encl K j K' htn hokt ?_ ?_ h
          · intro hnone
            apply hr.2.2
            cases t with
            | record n2 ns2 d fs er al ps =>
              simp only [Schema.OutOk, Schema.Everywhere] at hokt
              simp only [Schema.fullName?, Option.some.injEq, Schema.nsOf] at hfull hnone
              have := makeFullName_inj hokt.1.1.1 hr.1 hfull
              rw [← this.2, hnone]; rfl
            | enum n2 ns2 d fs er al ps =>
              simp only [Schema.OutOk, Schema.Everywhere] at hokt
              simp only [Schema.fullName?, Option.some.injEq, Schema.nsOf] at hfull hnone
              have := makeFullName_inj hokt.1.1 hr.1 hfull
              rw [← this.2, hnone]; rfl
            | fixed n2 ns2 d fs er al =>
              simp only [Schema.OutOk, Schema.Everywhere] at hokt
              simp only [Schema.fullName?, Option.some.injEq, Schema.nsOf] at hfull hnone
              have := makeFullName_inj hokt.1.1 hr.1 hfull
              rw [← this.2, hnone]; rfl
            | _ => exact absurd htn (by simp [Schema.IsNamed])
          · intro full hf
            rw [hfull] at hf
            cases hf
            exact hk
    | record nm ns doc fs er al ps =>
      simp only [Schema.OutOk, Schema.Everywhere] at hok
      obtain ⟨⟨hr, hps⟩, hfs⟩ := hok
      have hns : ns = none → nsStr encl = "" := fun hn => hr.2.2 (by rw [hn]; rfl)
      refine named nm ns trivial rfl rfl hr ?_ ?_
      · refine ⟨⟨⟨hr.1, hr.2.1, fun h => h⟩, hps⟩, ?_⟩
        rw [innerNs_eq hns] at hfs
        rw [innerNs_eq (by intro h; rw [h]; rfl)]
        exact hfs
      · intro hk
        have : namedTypePreamble (if er = true then "error" else "record") nm ns doc K encl
            = .error (.str (schemaRefName nm ns encl)) := by
          simp [namedTypePreamble, hk]
        simp [schemaToJson, this]
    | enum nm ns doc sy df al ps =>
      obtain ⟨hr, hps⟩ := hok
      refine named nm ns trivial rfl rfl hr ⟨⟨hr.1, hr.2.1, fun h => h⟩, hps⟩ ?_
      intro hk
      have : namedTypePreamble "enum" nm ns doc K encl
          = .error (.str (schemaRefName nm ns encl)) := by
        simp [namedTypePreamble, hk]
      simp [schemaToJson, this]
    | fixed nm ns doc sz al ps =>
      obtain ⟨hr, hps⟩ := hok
      refine named nm ns trivial rfl rfl hr ⟨⟨hr.1, hr.2.1, fun h => h⟩, hps⟩ ?_
      intro hk
      have : namedTypePreamble "fixed" nm ns doc K encl
          = .error (.str (schemaRefName nm ns encl)) := by
        simp [namedTypePreamble, hk]
      simp [schemaToJson, this]

end Avdl
