import Verif.Lemmas.RoundTripSchema
import Verif.Props.Registry
import Verif.Props.Import
/-!
# Export followed by import: protocols
-/

namespace Avdl

open Spec

theorem TableOk.lookupIn {d : Option String} {types : List Schema} (H : TableOk d types)
    (hin : ∀ t ∈ types, InOk t) : LookupIn (buildLookup types d) := by
  intro full t h
  obtain ⟨hm, -⟩ := H.lookup_iff.1 h
  exact ⟨H.flat t hm, "", hin t hm⟩

/-! ### Types -/

theorem types_import {d d' : Option String} {types : List Schema} (H : TableOk d types)
    (hin : ∀ t ∈ types, InOk t) (hd : nsStr d' = nsStr d) (n : Nat) :
    ∀ (ts : List Schema), (∀ t ∈ ts, t ∈ types) → ∀ K js K',
      mapAccum (fun s k => schemaToJson (buildLookup types d) n s d k) ts K = some (js, K') →
      ∃ cs, importAll (jsonToSchema d') (js.filter fun v => !v.isStr) = .ok cs ∧
        Brought (buildLookup types d) (cs.flatMap definitions) K K' := by
  intro ts
  induction ts with
  | nil =>
    intro _ K js K' h
    simp only [mapAccum, Option.some.injEq, Prod.mk.injEq] at h
    obtain ⟨rfl, rfl⟩ := h
    exact ⟨[], rfl, .nil ..⟩
  | cons t ts ih =>
    intro hts K js K' h
    simp only [mapAccum] at h
    cases h1 : schemaToJson (buildLookup types d) n t d K with
    | none => rw [h1] at h; cases h
    | some r =>
      obtain ⟨j, K1⟩ := r
      rw [h1] at h
      simp only at h
      cases h2 : mapAccum (fun s k => schemaToJson (buildLookup types d) n s d k) ts K1 with
      | none => rw [h2] at h; cases h
      | some r =>
        obtain ⟨js2, K2⟩ := r
        rw [h2] at h
        simp only [Option.some.injEq, Prod.mk.injEq] at h
        obtain ⟨rfl, rfl⟩ := h
        obtain ⟨cs, i1, i2⟩ := ih (fun t ht => hts t (List.mem_cons_of_mem _ ht)) K1 js2 K2 h2
        have ht : t ∈ types := hts t (by simp)
        have hnamed := Schema.isNamed_of_flatDef (H.flat t ht)
        obtain ⟨x, hx⟩ := IsNamed_fullName hnamed
        by_cases hk : x ∈ K
        · obtain ⟨hstr, rfl⟩ := ser_known_str hnamed hx hk h1
          refine ⟨cs, ?_, i2⟩
          simpa [List.filter_cons, hstr] using i1
        · have hobj := ser_new_obj hnamed hx hk h1
          obtain ⟨s', nm, ns', g1, -, -, -, g5⟩ :=
            (ser_import _ H.lookupOk (H.lookupIn hin) n).2 t d d' K j K1 x hnamed
              (H.lookup_iff.2 ⟨ht, hx⟩) (H.ns t ht) hk hd h1
          refine ⟨s' :: cs, ?_, ?_⟩
          · simp only [List.filter_cons, hobj, Bool.not_false, if_true, importAll, g1, i1]
          · simpa using g5.append i2

/-- Registration of several definitions with new, distinct names. -/
theorem foldl_registerIgnore [CharTables] : ∀ (ds : List Schema) (r : Registry),
    (∀ t ∈ ds, Props.Acceptable t) → (ds.filterMap Schema.fullName?).Nodup →
    (∀ t ∈ ds, ∀ full, t.fullName? = some full → full ∉ r.names) →
    ∃ new : Registry, ds.foldl Registry.registerIgnore r = r ++ new ∧
      new.map Prod.fst = ds.filterMap Schema.fullName? ∧
      ∀ full t, (full, t) ∈ new → t ∈ ds ∧ t.fullName? = some full := by
  intro ds
  induction ds with
  | nil => intro r _ _ _; exact ⟨[], by simp, rfl, by simp⟩
  | cons t ds ih =>
    intro r hac hnd hnew
    obtain ⟨full, hf⟩ : ∃ full, t.fullName? = some full := by
      obtain ⟨n, ns, h, -⟩ := hac t (by simp)
      cases h <;> exact ⟨_, rfl⟩
    have hreg := (Props.register_ok_iff r t (r ++ [(full, t)])).2
      ⟨hac t (by simp), full, hf, hnew t (by simp) full hf, rfl⟩
    have hstep : r.registerIgnore t = r ++ [(full, t)] := by
      unfold Registry.registerIgnore
      rw [hreg]
    simp only [List.filterMap_cons, hf, List.nodup_cons] at hnd
    obtain ⟨new, h1, h2, h3⟩ := ih (r ++ [(full, t)]) (fun u hu => hac u (by simp [hu])) hnd.2 (by
      intro u hu full' hf' hm
      simp only [Registry.names, List.map_append, List.map_cons, List.map_nil, List.mem_append,
        List.mem_singleton] at hm
      rcases hm with hm | hm
      · exact hnew u (by simp [hu]) full' hf' hm
      · subst hm
        exact hnd.1 (List.mem_filterMap.2 ⟨u, hu, hf'⟩))
    refine ⟨(full, t) :: new, ?_, ?_, ?_⟩
    · simp only [List.foldl_cons, hstep, h1, List.append_assoc, List.singleton_append]
    · simp [hf, h2]
    · intro full' t' hm
      rcases List.mem_cons.1 hm with hm | hm
      · cases hm; exact ⟨by simp, hf⟩
      · have := h3 _ _ hm; exact ⟨by simp [this.1], this.2⟩

theorem flattenAndRegister_defs [CharTables] (r : Registry) (s : Schema) :
    flattenAndRegister r s = ((definitions s).map outlineDef).foldl Registry.registerIgnore r := by
  unfold flattenAndRegister flattenSchema
  rw [flattenInner_eq]

theorem importTypes_ok [CharTables] {d : Option String} {js : List Json} :
    ∀ {cs : List Schema} {r : Registry}, importAll (jsonToSchema d) js = .ok cs →
      importTypes d js r =
        .ok (((cs.flatMap definitions).map outlineDef).foldl Registry.registerIgnore r) := by
  induction js with
  | nil => intro cs r h; cases h; rfl
  | cons j js ih =>
    intro cs r h
    simp only [importAll] at h
    cases hj : jsonToSchema d j with
    | error e => rw [hj] at h; cases h
    | ok c =>
      rw [hj] at h
      simp only at h
      cases hl : importAll (jsonToSchema d) js with
      | error e => rw [hl] at h; cases h
      | ok cs' =>
        rw [hl] at h
        cases h
        simp only [importTypes, hj, ih hl, flattenAndRegister_defs, List.flatMap_cons,
          List.map_append, List.foldl_append]

theorem makeFullName_sameNs {n : String} {ns ns' : Option String} (h : SameNs ns ns') :
    makeFullName n ns = makeFullName n ns' := by
  rw [makeFullName_nsStr n ns, makeFullName_nsStr n ns', h]

theorem sameDef_fullName {t t' : Schema} (h : SameDef t t') : t.fullName? = t'.fullName? := by
  cases h with
  | record h => simp only [Schema.fullName?, makeFullName_sameNs h]
  | enum h => simp only [Schema.fullName?, makeFullName_sameNs h]
  | fixed h => simp only [Schema.fullName?, makeFullName_sameNs h]

theorem legalNamespace_sameNs [CharTables] {ns ns' : Option String} (h : SameNs ns ns')
    (hl : LegalNamespace ns) : LegalNamespace ns' := by
  unfold SameNs at h
  cases ns' with
  | none => exact .inl rfl
  | some x =>
    cases ns with
    | none =>
      have : x = "" := h.symm
      exact .inr (.inl (by rw [this]))
    | some y =>
      have : y = x := h
      rw [← this]
      exact hl

theorem sameDef_acceptable [CharTables] {t t' : Schema} (h : SameDef t t')
    (ha : Props.Acceptable t) : Props.Acceptable t' := by
  obtain ⟨n, ns, hd, h1, h2⟩ := ha
  cases h with
  | record h => cases hd; exact ⟨_, _, .record, h1, legalNamespace_sameNs h h2⟩
  | enum h => cases hd; exact ⟨_, _, .enum, h1, legalNamespace_sameNs h h2⟩
  | fixed h => cases hd; exact ⟨_, _, .fixed, h1, legalNamespace_sameNs h h2⟩

theorem fullName_outlineDef (s : Schema) : (outlineDef s).fullName? = s.fullName? := by
  cases s <;> rfl

/-- Registering what was brought. -/
theorem register_brought [CharTables] {lk : Lookup} {defs : List Schema} {K' : Known}
    (hB : Brought lk defs [] K') (hnd : K'.Nodup)
    (hac : ∀ full t, lk.get? full = some t → Props.Acceptable t) :
    ∃ r : Registry, (defs.map outlineDef).foldl Registry.registerIgnore [] = r ∧
      (r.map Prod.fst).Perm K' ∧
      ∀ full t', (full, t') ∈ r → ∃ t, lk.get? full = some t ∧ SameDef t t' := by
  obtain ⟨new, h1, h2⟩ := hB.new
  rw [List.append_nil] at h1
  subst h1
  have hfm : (defs.map outlineDef).filterMap Schema.fullName? = defs.filterMap Schema.fullName? := by
    rw [List.filterMap_map]
    congr 1
    funext s
    exact fullName_outlineDef s
  obtain ⟨r, g1, g2, g3⟩ := foldl_registerIgnore (defs.map outlineDef) [] (by
      intro t ht
      obtain ⟨t', ht', rfl⟩ := List.mem_map.1 ht
      obtain ⟨full, t, -, hl, hs⟩ := hB.same t' ht'
      exact sameDef_acceptable hs (hac _ _ hl)) (by rw [hfm]; exact h2.nodup_iff.1 hnd) (by
      intro t _ full _ hm; cases hm)
  refine ⟨r, by rw [g1]; rfl, by rw [g2, hfm]; exact h2.symm, ?_⟩
  intro full t' hm
  obtain ⟨k1, k2⟩ := g3 _ _ hm
  obtain ⟨u, hu, rfl⟩ := List.mem_map.1 k1
  obtain ⟨full', t, hf', hl, hs⟩ := hB.same u hu
  rw [fullName_outlineDef, hf'] at k2
  cases k2
  exact ⟨t, hl, hs⟩

/-! ### Messages -/

mutual
theorem outline_of_nil : (s : Schema) → definitions s = [] → outline s = s
  | .record .., h => by simp [definitions] at h
  | .enum .., h => by simp [definitions] at h
  | .fixed .., h => by simp [definitions] at h
  | .array i _, h => by
      simp only [definitions] at h
      simp only [outline, outline_of_nil i h]
  | .map i _, h => by
      simp only [definitions] at h
      simp only [outline, outline_of_nil i h]
  | .union ts _, h => by
      simp only [definitions] at h
      simp only [outline, outlineList_of_nil ts h]
  | .prim _, _ | .annotated .., _ | .logical .., _ | .ref .., _ => by simp only [outline]
theorem outlineList_of_nil : (ss : List Schema) → definitionsL ss = [] → outlineList ss = ss
  | [], _ => by simp only [outlineList]
  | s :: ss, h => by
      simp only [definitionsL, List.append_eq_nil_iff] at h
      simp only [outlineList, outline_of_nil s h.1, outlineList_of_nil ss h.2]
end

theorem brought_same_nil {lk : Lookup} {defs : List Schema} {K : Known} (h : Brought lk defs K K) :
    defs = [] := by
  obtain ⟨new, h1, h2⟩ := h.new
  have : new = [] := by
    have := congrArg List.length h1
    rw [List.length_append] at this
    exact List.eq_nil_of_length_eq_zero (by omega)
  subst this
  have h3 := List.nil_perm.1 h2
  cases defs with
  | nil => rfl
  | cons t defs =>
    obtain ⟨full, _, hf, -⟩ := h.same t (by simp)
    simp [hf] at h3

theorem ser_import_refs {lk : Lookup} (hlk : LookupOk lk) (hin : LookupIn lk) {n : Nat}
    {s : Schema} {encl d : Option String} {K K' : Known} {j : Json} (hK : ∀ x ∈ K, lk.Has x)
    (hnd : s.noDefs = true) (hok : s.OutOk (· ∈ K) (nsStr encl)) (hi : InOk s)
    (hd : nsStr d = nsStr encl) (h : schemaToJson lk n s encl K = some (j, K')) :
    K' = K ∧ ∃ s', jsonToSchema d j = .ok s' ∧ Same s s' := by
  have h1 := ser_known_same lk n s encl _ K j K' hnd hok h
  subst h1
  obtain ⟨s', g1, g2, g3⟩ := (ser_import lk hlk hin n).1 s encl d _ j _ _ hnd (hok.mono hK) hi hd h
  rw [outline_of_nil s' (brought_same_nil g3)] at g2
  exact ⟨rfl, s', g1, g2⟩

theorem mapAccum_import_refs {α γ : Type} {f : α → Known → Option (Json × Known)}
    {imp : Json → Except ImportErr γ} {R : α → γ → Prop} {K : Known} {l : List α}
    (H : ∀ a ∈ l, ∀ b K', f a K = some (b, K') → K' = K ∧ ∃ c, imp b = .ok c ∧ R a c) :
    ∀ {K' : Known} {bs : List Json}, mapAccum f l K = some (bs, K') →
      K' = K ∧ ∃ cs, importAll imp bs = .ok cs ∧ Matching R l cs := by
  induction l with
  | nil =>
    intro K' bs h
    simp only [mapAccum, Option.some.injEq, Prod.mk.injEq] at h
    obtain ⟨rfl, rfl⟩ := h
    exact ⟨rfl, [], rfl, .nil⟩
  | cons a l ih =>
    intro K' bs h
    simp only [mapAccum] at h
    cases ha : f a K with
    | none => rw [ha] at h; cases h
    | some r =>
      obtain ⟨b, K1⟩ := r
      rw [ha] at h
      simp only at h
      obtain ⟨rfl, c, hc, hR⟩ := H a (by simp) _ _ ha
      cases hl : mapAccum f l K1 with
      | none => rw [hl] at h; cases h
      | some r =>
        obtain ⟨bs', K2⟩ := r
        rw [hl] at h
        simp only [Option.some.injEq, Prod.mk.injEq] at h
        obtain ⟨rfl, rfl⟩ := h
        obtain ⟨rfl, cs, hcs, hM⟩ := ih (fun x hx => H x (by simp [hx])) hl
        exact ⟨rfl, c :: cs, by simp only [importAll, hc, hcs], .cons hR hM⟩

theorem matching_sameList {l l' : List Schema} (h : Matching Same l l') : SameList l l' := by
  induction h with
  | nil => exact .nil
  | cons h _ ih => exact .cons h ih

theorem sameField_withType {f f' : Field} {s : Schema} (hs : s = f'.schema)
    (h : SameField f (withType f' s)) : SameField f f' := by
  subst hs
  cases f'
  exact h

/-- What else is found in the object written for a message. -/
theorem messageObj_rest {m : Message} (hp : m.props.Avoids messageKeys) (hwf : m.props.Wf)
    (req : List Json) (resp : Json) (errs : Option (List Json)) :
    (messageObj m req resp errs).get? "doc" = m.doc.map .str ∧
    ((JMap.get? (messageObj m req resp errs) "one-way").bind Json.asBool).getD false = m.oneWay ∧
    SameMap m.props (collectExtra (messageObj m req resp errs) messageKeys) := by
  obtain ⟨doc, props, request, response, errors, oneWay⟩ := m
  have hbase : ∀ k ∈ messageKeys, ∀ o : JMap, (o.insertAll props).get? k = o.get? k :=
    fun k hk o => get?_insertAll_avoid hp hk
  have hextra : ∀ o : JMap, KeysIn messageKeys o →
      SameMap props (collectExtra (o.insertAll props) messageKeys) :=
    fun o ho => collectExtra_insertAll ho hwf hp
  refine ⟨?_, ?_, ?_⟩
  · unfold messageObj
    have := hbase "doc" (by simp [messageKeys])
    cases errs <;> cases oneWay <;> simp [JMap.get?_insert] <;> rw [this] <;> cases doc <;>
      simp [JMap.get?_insert, JMap.get?]
  · unfold messageObj
    have := hbase "one-way" (by simp [messageKeys])
    cases errs <;> cases oneWay <;> simp [JMap.get?_insert, Json.asBool] <;> rw [this] <;>
      cases doc <;> simp [JMap.get?_insert, JMap.get?]
  · unfold messageObj
    have k1 : ∀ (v : Json) (o : JMap), collectExtra (JMap.insert "one-way" v o) messageKeys =
        collectExtra o messageKeys := collectExtra_insert_known (by simp [messageKeys])
    have k2 : ∀ (v : Json) (o : JMap), collectExtra (JMap.insert "errors" v o) messageKeys =
        collectExtra o messageKeys := collectExtra_insert_known (by simp [messageKeys])
    have k3 : ∀ (v : Json) (o : JMap), collectExtra (JMap.insert "response" v o) messageKeys =
        collectExtra o messageKeys := collectExtra_insert_known (by simp [messageKeys])
    have k4 : ∀ (v : Json) (o : JMap), collectExtra (JMap.insert "request" v o) messageKeys =
        collectExtra o messageKeys := collectExtra_insert_known (by simp [messageKeys])
    cases errs <;> cases oneWay <;> simp only [if_true, if_false, k1, k2, k3, k4,
      Bool.false_eq_true] <;> refine hextra _ ?_ <;> cases doc <;>
      first | exact keysIn_nil _ | exact (keysIn_nil _).insert (by simp [messageKeys]) _

theorem message_import {lk : Lookup} (hlk : LookupOk lk) (hin : LookupIn lk) {n : Nat}
    {ns d : Option String} {m : Message} {K K' : Known} {j : Json} (hK : ∀ x ∈ K, lk.Has x)
    (hm : MessageOk ns (· ∈ K) m) (hi : InMessage m) (hd : nsStr d = nsStr ns)
    (h : messageToJson lk n ns m K = some (j, K')) :
    K' = K ∧ ∃ m', jsonToMessage d j = .ok m' ∧ SameMessage m m' := by
  unfold messageToJson at h
  cases h1 : mapAccum (fieldToJson fun s k => schemaToJson lk n s ns k) m.request K with
  | none => rw [h1] at h; cases h
  | some r =>
    obtain ⟨req, K1⟩ := r
    rw [h1] at h
    simp only at h
    obtain ⟨rfl, req', hreq, hreqM⟩ := mapAccum_import_refs (imp := jsonToField d)
      (R := SameField) (by
      intro f hf b K' hb
      obtain ⟨hnd, hok, hof⟩ := hm.request f hf
      simp only [fieldToJson] at hb
      cases hs : schemaToJson lk n f.schema ns K with
      | none => rw [hs] at hb; cases hb
      | some r =>
        obtain ⟨j, K2⟩ := r
        rw [hs] at hb
        simp only [Option.some.injEq, Prod.mk.injEq] at hb
        obtain ⟨rfl, rfl⟩ := hb
        have h1 := ser_known_same lk n f.schema ns _ K j K2 hnd hok hs
        subst h1
        obtain ⟨s', g1, g2, g3⟩ := (ser_import lk hlk hin n).1 f.schema ns d _ j _ _ hnd
          (hok.mono hK) (hi.request f hf).2 hd hs
        obtain ⟨f', k1, k2, k3⟩ := jsonToField_export hof (hi.request f hf).1 g1 g2
        refine ⟨rfl, f', k1, sameField_withType ?_ k3⟩
        rw [k2]
        exact outline_of_nil s' (brought_same_nil g3)) h1
    cases h2 : schemaToJson lk n m.response ns K1 with
    | none => rw [h2] at h; cases h
    | some r =>
      obtain ⟨resp, K2⟩ := r
      rw [h2] at h
      simp only at h
      obtain ⟨rfl, resp', hresp, hrespS⟩ := ser_import_refs hlk hin hK hm.response.1 hm.response.2
        hi.response hd h2
      cases he : m.errors with
      | none =>
        rw [he] at h
        simp only [Option.some.injEq, Prod.mk.injEq] at h
        obtain ⟨rfl, rfl⟩ := h
        obtain ⟨g1, g2, g3⟩ := get?_messageObj hm.props req resp none
        obtain ⟨r1, r2, r3⟩ := messageObj_rest hm.props hi.props req resp none
        refine ⟨rfl, ⟨m.doc, collectExtra (messageObj m req resp none) messageKeys, req', resp',
          none, m.oneWay⟩, ?_, ⟨rfl, r3, hreqM, hrespS, .inl ⟨he, rfl⟩, rfl⟩⟩
        simp only [jsonToMessage, schemaEntry_eq, g1, g2, g3, fieldsOfJson, jsonToFieldList_eq, hreq,
          Option.map_some, hresp, Option.map_none, getStr_of r1, r2]
      | some es =>
        rw [he] at h
        simp only at h
        cases h3 : mapAccum (fun s k => schemaToJson lk n s ns k) es K2 with
        | none => rw [h3] at h; cases h
        | some r =>
          obtain ⟨ej, K3⟩ := r
          rw [h3] at h
          simp only [Option.some.injEq, Prod.mk.injEq] at h
          obtain ⟨rfl, rfl⟩ := h
          obtain ⟨rfl, es', herr, herrM⟩ := mapAccum_import_refs (imp := jsonToSchema d) (R := Same)
            (by
              intro s hs b K' hb
              obtain ⟨hnd, hok⟩ := hm.errors es he s hs
              exact ser_import_refs hlk hin hK hnd hok (hi.errors es he s hs) hd hb) h3
          obtain ⟨g1, g2, g3⟩ := get?_messageObj hm.props req resp (some ej)
          obtain ⟨r1, r2, r3⟩ := messageObj_rest hm.props hi.props req resp (some ej)
          refine ⟨rfl, ⟨m.doc, collectExtra (messageObj m req resp (some ej)) messageKeys, req',
            resp', some es', m.oneWay⟩, ?_,
            ⟨rfl, r3, hreqM, hrespS, .inr ⟨es, es', he, rfl, matching_sameList herrM⟩, rfl⟩⟩
          simp only [jsonToMessage, schemaEntry_eq, g1, g2, g3, fieldsOfJson, jsonToFieldList_eq,
            hreq, Option.map_some, hresp, getStr_of r1, r2, jsonToSchemaList_eq, herr, Except.map]

/-- The messages written are the protocol's, and each is read back. -/
theorem messages_import {lk : Lookup} (hlk : LookupOk lk) (hin : LookupIn lk) {n : Nat}
    {ns d : Option String} {K : Known} (hK : ∀ x ∈ K, lk.Has x) (hd : nsStr d = nsStr ns) :
    ∀ (l : List (String × Message)),
      (∀ nm ∈ l, MessageOk ns (· ∈ K) nm.2 ∧ InMessage nm.2) →
      ∀ msgs K2, mapAccum (fun (nm : String × Message) k =>
        (messageToJson lk n ns nm.2 k).map fun jk => ((nm.1, jk.1), jk.2)) l K = some (msgs, K2) →
      msgs.map Prod.fst = l.map Prod.fst ∧
      ∀ kv ∈ msgs, ∃ m m', (kv.1, m) ∈ l ∧ jsonToMessage d kv.2 = .ok m' ∧ SameMessage m m' := by
  intro l
  induction l with
  | nil =>
    intro _ msgs K2 h
    simp only [mapAccum, Option.some.injEq, Prod.mk.injEq] at h
    obtain ⟨rfl, rfl⟩ := h
    exact ⟨rfl, by simp⟩
  | cons nm l ih =>
    intro hl msgs K2 h
    simp only [mapAccum] at h
    cases hm : messageToJson lk n ns nm.2 K with
    | none => simp only [hm, Option.map_none] at h; cases h
    | some r =>
      obtain ⟨j, K3⟩ := r
      obtain ⟨h1, h2⟩ := hl nm (by simp)
      obtain ⟨rfl, m', hm', hs'⟩ := message_import hlk hin hK h1 h2 hd hm
      simp only [hm, Option.map_some] at h
      split at h
      · cases h
      · rename_i bs s2 hrest
        simp only [Option.some.injEq, Prod.mk.injEq] at h
        obtain ⟨rfl, rfl⟩ := h
        obtain ⟨i1, i2⟩ := ih (fun nm h => hl nm (List.mem_cons_of_mem _ h)) _ _ hrest
        refine ⟨by simp [i1], ?_⟩
        intro kv hkv
        rcases List.mem_cons.mp hkv with rfl | hkv
        · exact ⟨nm.2, m', by simp, hm', hs'⟩
        · obtain ⟨m, m', g1, g2⟩ := i2 kv hkv
          exact ⟨m, m', by simp [g1], g2⟩

theorem importMessages_ok {d : Option String} {R : String → Message → Prop} :
    ∀ (l : List (String × Json)),
      (∀ kv ∈ l, ∃ m', jsonToMessage d kv.2 = .ok m' ∧ R kv.1 m') →
      ∃ ms, importMessages d l = .ok ms ∧ ms.map Prod.fst = l.map Prod.fst ∧
        ∀ name m', (name, m') ∈ ms → R name m' := by
  intro l
  induction l with
  | nil => intro _; exact ⟨[], rfl, rfl, by simp⟩
  | cons kv l ih =>
    intro h
    obtain ⟨k, j⟩ := kv
    obtain ⟨m', h1, h2⟩ := h (k, j) (by simp)
    obtain ⟨ms, i1, i2, i3⟩ := ih (fun x hx => h x (by simp [hx]))
    refine ⟨(k, m') :: ms, ?_, by simp [i2], ?_⟩
    · simp only at h1
      simp only [importMessages, h1, i1]
    · intro name m'' hm
      rcases List.mem_cons.1 hm with hm | hm
      · cases hm; exact h2
      · exact i3 _ _ hm

theorem insertAll_nil_perm {l : List (String × Json)} (h : (l.map Prod.fst).Nodup) :
    (JMap.insertAll [] l).Perm l := by
  have := collectExtra_insertAll_aux (known := []) l (m := []) h (by intro kv _ hm; cases hm)
    (by intro x hx; cases hx)
  have hid : ∀ m : JMap, collectExtra m [] = m := by
    intro m
    unfold collectExtra
    rw [List.filter_eq_self]
    intro x _
    rfl
  rw [hid, hid, List.append_nil] at this
  exact this

end Avdl
