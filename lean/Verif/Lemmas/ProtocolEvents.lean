import Verif.Lemmas.Flat
/-! The one-pass reader on protocol documents. -/

namespace Avdl

open Spec

/-- Conditions on a message in namespace `ns` whose type names are `known`: it only refers to
types, all of them known, and its custom properties do not use structural keys. -/
structure MessageOk (ns : Option String) (known : String → Prop) (m : Message) : Prop where
  request : ∀ f ∈ m.request, f.schema.noDefs = true ∧ f.schema.OutOk known (nsStr ns) ∧ OutField f
  response : m.response.noDefs = true ∧ m.response.OutOk known (nsStr ns)
  errors : ∀ es, m.errors = some es → ∀ s ∈ es, s.noDefs = true ∧ s.OutOk known (nsStr ns)
  props : m.props.Avoids ["doc", "request", "response", "errors", "one-way"]

/-- Conditions on a protocol: a coherent type table, and messages that only refer to it. -/
structure ProtocolOk (p : Protocol) : Prop where
  table : TableOk p.ns p.types
  messages : ∀ nm ∈ p.messages, MessageOk p.ns (· ∈ fullNames p.types) nm.2
  props : p.props.Avoids ["protocol", "namespace", "doc", "types", "messages"]

theorem Schema.Everywhere.mono {P P' : String → Schema → Prop} {Q : Field → Prop}
    (hP : ∀ e s, P e s → P' e s) : ∀ {s : Schema} {e : String}, s.Everywhere P Q e →
      s.Everywhere P' Q e := by
  intro s
  refine Schema.rec (motive_1 := fun s => ∀ {e}, s.Everywhere P Q e → s.Everywhere P' Q e)
    (motive_2 := fun f => ∀ {e}, f.schema.Everywhere P Q e → f.schema.Everywhere P' Q e)
    (motive_3 := fun fs => ∀ {e}, Schema.EverywhereF P Q e fs → Schema.EverywhereF P' Q e fs)
    (motive_4 := fun ss => ∀ {e}, Schema.EverywhereL P Q e ss → Schema.EverywhereL P' Q e ss)
    ?_ ?_ ?_ ?_ ?_ ?_ ?_ ?_ ?_ ?_ ?_ ?_ ?_ ?_ ?_ s
  · intro p e h; exact hP _ _ h
  · intro n ns d fs er al ps ih e h; exact ⟨hP _ _ h.1, ih h.2⟩
  · intro a b c d e' f g e h; exact hP _ _ h
  · intro a b c d e' f e h; exact hP _ _ h
  · intro i ps ih e h; exact ⟨hP _ _ h.1, ih h.2⟩
  · intro i ps ih e h; exact ⟨hP _ _ h.1, ih h.2⟩
  · intro ts b ih e h; exact ⟨hP _ _ h.1, ih h.2⟩
  · intro k ps e h; exact hP _ _ h
  · intro k ps e h; exact hP _ _ h
  · intro n ns ps sp e h; exact hP _ _ h
  · intro n s d df o al ps ih e h; exact ih h
  · intro e h; exact h
  · intro f fs ihf ih e h
    cases f
    exact ⟨h.1, ihf h.2.1, ih h.2.2⟩
  · intro e h; exact h
  · intro s ss ihs ih e h; exact ⟨ihs h.1, ih h.2⟩

theorem Schema.OutOk.mono {known known' : String → Prop} (h : ∀ x, known x → known' x)
    {s : Schema} {e : String} (hs : s.OutOk known e) : s.OutOk known' e := by
  refine Schema.Everywhere.mono ?_ hs
  intro e s hs
  cases s with
  | ref n ns ps sp => exact ⟨hs.1, h _ hs.2⟩
  | _ => exact hs

theorem ser_refs_events {lk : Lookup} (hlk : LookupOk lk) {n : Nat} {s : Schema}
    {encl : Option String} {K K' : Known} {j : Json} (hK : ∀ x ∈ K, lk.Has x)
    (hnd : s.noDefs = true) (hok : s.OutOk (· ∈ K) (nsStr encl))
    (h : schemaToJson lk n s encl K = some (j, K')) :
    K' = K ∧ run (events (nsStr encl) j) K = some K := by
  have h1 := ser_known_same lk n s encl _ K j K' hnd hok h
  subst h1
  exact ⟨rfl, (ser_events lk hlk n).1 s encl _ j _ (hok.mono hK) h⟩

theorem get?_messageObj {m : Message} (hp : m.props.Avoids ["doc", "request", "response", "errors", "one-way"])
    (req : List Json) (resp : Json) (errs : Option (List Json)) :
    (messageObj m req resp errs).get? "request" = some (.arr req) ∧
    (messageObj m req resp errs).get? "response" = some resp ∧
    (messageObj m req resp errs).get? "errors" = errs.map .arr := by
  have base : ∀ k, k ∈ ["request", "response", "errors", "one-way"] →
      JMap.get? ((match m.doc with
        | some d => JMap.insert "doc" (.str d) []
        | none => []).insertAll m.props) k = none := by
    intro k hk
    rw [get?_insertAll_avoid hp (List.mem_cons_of_mem _ hk)]
    cases m.doc with
    | none => rfl
    | some d =>
      simp only [JMap.get?_insert]
      rw [if_neg]
      · rfl
      · rintro rfl; revert hk; decide
  unfold messageObj
  cases errs with
  | none =>
    cases m.oneWay <;> simp [JMap.get?_insert] <;> exact base "errors" (by decide)
  | some es => cases m.oneWay <;> simp [JMap.get?_insert]

theorem mapAccum_refs {α : Type} {f : α → Known → Option (Json × Known)}
    (ev : Json → List Ev) {l : List α} {K : Known}
    (h : ∀ a ∈ l, ∀ b K', f a K = some (b, K') → K' = K ∧ run (ev b) K = some K)
    {bs : List Json} {K' : Known} (hm : mapAccum f l K = some (bs, K')) :
    K' = K ∧ run (bs.flatMap ev) K = some K := by
  induction l generalizing bs with
  | nil =>
    simp only [mapAccum, Option.some.injEq, Prod.mk.injEq] at hm
    obtain ⟨rfl, rfl⟩ := hm
    exact ⟨rfl, rfl⟩
  | cons a as ih =>
    simp only [mapAccum] at hm
    cases h1 : f a K with
    | none => rw [h1] at hm; cases hm
    | some r =>
      obtain ⟨b, s1⟩ := r
      rw [h1] at hm
      simp only at hm
      obtain ⟨rfl, hb⟩ := h a (by simp) _ _ h1
      cases h2 : mapAccum f as s1 with
      | none => rw [h2] at hm; cases hm
      | some r =>
        obtain ⟨bs2, s2⟩ := r
        rw [h2] at hm
        simp only [Option.some.injEq, Prod.mk.injEq] at hm
        obtain ⟨rfl, rfl⟩ := hm
        obtain ⟨rfl, hbs⟩ := ih (fun a ha => h a (List.mem_cons_of_mem _ ha)) h2
        exact ⟨rfl, by rw [List.flatMap_cons, run_append, hb]; exact hbs⟩

theorem message_events {lk : Lookup} (hlk : LookupOk lk) {n : Nat} {ns : Option String}
    {m : Message} {K K' : Known} {j : Json} (hK : ∀ x ∈ K, lk.Has x)
    (hm : MessageOk ns (· ∈ K) m) (h : messageToJson lk n ns m K = some (j, K')) :
    K' = K ∧ run (messageEvents (nsStr ns) j) K = some K := by
  unfold messageToJson at h
  cases h1 : mapAccum (fieldToJson fun s k => schemaToJson lk n s ns k) m.request K with
  | none => rw [h1] at h; cases h
  | some r =>
    obtain ⟨req, K1⟩ := r
    rw [h1] at h
    simp only at h
    obtain ⟨rfl, hreq⟩ := mapAccum_refs (fieldEvents (nsStr ns)) (by
      intro f hf b K' hb
      obtain ⟨hnd, hok, hof⟩ := hm.request f hf
      simp only [fieldToJson] at hb
      cases hs : schemaToJson lk n f.schema ns K with
      | none => rw [hs] at hb; cases hb
      | some r =>
        obtain ⟨j, K2⟩ := r
        rw [hs] at hb
        simp only [Option.some.injEq, Prod.mk.injEq] at hb
        obtain ⟨rfl, rfl⟩ := hb
        simp only [fieldEvents, eventsAttr_eq, get?_fieldObj f j hof, Option.map_some,
          Option.getD_some]
        exact ser_refs_events hlk hK hnd hok hs) h1
    cases h2 : schemaToJson lk n m.response ns K1 with
    | none => rw [h2] at h; cases h
    | some r =>
      obtain ⟨resp, K2⟩ := r
      rw [h2] at h
      simp only at h
      obtain ⟨rfl, hresp⟩ := ser_refs_events hlk hK hm.response.1 hm.response.2 h2
      cases he : m.errors with
      | none =>
        rw [he] at h
        simp only [Option.some.injEq, Prod.mk.injEq] at h
        obtain ⟨rfl, rfl⟩ := h
        obtain ⟨g1, g2, g3⟩ := get?_messageObj hm.props req resp none
        refine ⟨rfl, ?_⟩
        simp only [messageEvents, fieldsAttr_eq, eventsAttr_eq, errorsEvents, attr_eq_get?, g1, g2,
          g3, Option.map_some, Option.map_none, Option.getD_some, fieldsEvents,
          fieldsEventsList_eq, List.append_nil]
        rw [run_append, hreq]
        exact hresp
      | some es =>
        rw [he] at h
        simp only at h
        cases h3 : mapAccum (fun s k => schemaToJson lk n s ns k) es K2 with
        | none => rw [h3] at h; cases h
        | some r =>
          obtain ⟨ej, K3⟩ := r
          rw [h3] at h
          simp only [Option.some.injEq, Prod.mk.injEq] at h
          obtain ⟨rfl, rfl⟩ := h
          obtain ⟨rfl, herr⟩ := mapAccum_refs (events (nsStr ns)) (by
            intro s hs b K' hb
            obtain ⟨hnd, hok⟩ := hm.errors es he s hs
            exact ser_refs_events hlk hK hnd hok hb) h3
          obtain ⟨g1, g2, g3⟩ := get?_messageObj hm.props req resp (some ej)
          refine ⟨rfl, ?_⟩
          simp only [messageEvents, fieldsAttr_eq, eventsAttr_eq, errorsEvents, attr_eq_get?, g1,
            g2, g3, Option.map_some, Option.getD_some, fieldsEvents, fieldsEventsList_eq,
            eventsList_eq]
          rw [run_append, run_append, hreq]
          simp only [Option.bind_some]
          rw [hresp]
          exact herr

theorem mem_insertAll {m : JMap} {ps : List (String × Json)} {x : String × Json}
    (h : x ∈ m.insertAll ps) : x ∈ ps ∨ x ∈ m := by
  unfold JMap.insertAll at h
  induction ps generalizing m with
  | nil => exact .inr h
  | cons p ps ih =>
    rcases ih h with h | h
    · exact .inl (List.mem_cons_of_mem _ h)
    · rcases JMap.mem_insert h with rfl | h
      · exact .inl (by simp)
      · exact .inr h

theorem run_flatMap_same {α : Type} (ev : α → List Ev) (l : List α) (K : List String)
    (h : ∀ a ∈ l, run (ev a) K = some K) : run (l.flatMap ev) K = some K := by
  induction l with
  | nil => rfl
  | cons a as ih =>
    rw [List.flatMap_cons, run_append, h a (by simp)]
    exact ih fun a ha => h a (List.mem_cons_of_mem _ ha)

/-- Emitting a type that has been emitted already yields a bare string. -/
theorem ser_known_str {lk : Lookup} {n : Nat} {s encl K j K' x} (hn : s.IsNamed)
    (hx : s.fullName? = some x) (hk : x ∈ K) (h : schemaToJson lk n s encl K = some (j, K')) :
    j.isStr = true ∧ K' = K := by
  cases n with
  | zero => simp [schemaToJson] at h
  | succ n =>
    cases s with
    | record nm ns doc fs er al ps =>
      simp only [Schema.fullName?, Option.some.injEq] at hx
      rcases preamble_cases (if er = true then "error" else "record") nm ns doc encl K with
        ⟨-, he⟩ | ⟨hk', -⟩
      · simp only [schemaToJson, he, Option.some.injEq, Prod.mk.injEq] at h
        rw [← h.1]; exact ⟨rfl, h.2.symm⟩
      · exact absurd (hx ▸ hk) hk'
    | enum nm ns doc sy df al ps =>
      simp only [Schema.fullName?, Option.some.injEq] at hx
      rcases preamble_cases "enum" nm ns doc encl K with ⟨-, he⟩ | ⟨hk', -⟩
      · simp only [schemaToJson, he, Option.some.injEq, Prod.mk.injEq] at h
        rw [← h.1]; exact ⟨rfl, h.2.symm⟩
      · exact absurd (hx ▸ hk) hk'
    | fixed nm ns doc sz al ps =>
      simp only [Schema.fullName?, Option.some.injEq] at hx
      rcases preamble_cases "fixed" nm ns doc encl K with ⟨-, he⟩ | ⟨hk', -⟩
      · simp only [schemaToJson, he, Option.some.injEq, Prod.mk.injEq] at h
        rw [← h.1]; exact ⟨rfl, h.2.symm⟩
      · exact absurd (hx ▸ hk) hk'
    | _ => simp [Schema.IsNamed] at hn

/-- Emitting a type not emitted so far yields an object. -/
theorem ser_new_obj {lk : Lookup} {n : Nat} {s encl K j K' x} (hn : s.IsNamed)
    (hx : s.fullName? = some x) (hk : x ∉ K) (h : schemaToJson lk n s encl K = some (j, K')) :
    j.isStr = false := by
  cases n with
  | zero => simp [schemaToJson] at h
  | succ n =>
    cases s with
    | record nm ns doc fs er al ps =>
      simp only [Schema.fullName?, Option.some.injEq] at hx
      rcases preamble_cases (if er = true then "error" else "record") nm ns doc encl K with
        ⟨hk', -⟩ | ⟨-, obj, he⟩
      · exact absurd (hx ▸ hk') hk
      · simp only [schemaToJson, he] at h
        split at h
        · cases h
        · simp only [Option.some.injEq, Prod.mk.injEq] at h
          rw [← h.1]; rfl
    | enum nm ns doc sy df al ps =>
      simp only [Schema.fullName?, Option.some.injEq] at hx
      rcases preamble_cases "enum" nm ns doc encl K with ⟨hk', -⟩ | ⟨-, obj, he⟩
      · exact absurd (hx ▸ hk') hk
      · simp only [schemaToJson, he, Option.some.injEq, Prod.mk.injEq] at h
        rw [← h.1]; rfl
    | fixed nm ns doc sz al ps =>
      simp only [Schema.fullName?, Option.some.injEq] at hx
      rcases preamble_cases "fixed" nm ns doc encl K with ⟨hk', -⟩ | ⟨-, obj, he⟩
      · exact absurd (hx ▸ hk') hk
      · simp only [schemaToJson, he, Option.some.injEq, Prod.mk.injEq] at h
        rw [← h.1]; rfl
    | _ => simp [Schema.IsNamed] at hn

/-- A definition emitted for the first time starts with its own name. -/
theorem ser_def_head {lk : Lookup} {n : Nat} {s : Schema} {encl : Option String} {K K' : Known}
    {j : Json} {known : String → Prop} (hn : s.IsNamed) (hok : s.OutOk known (nsStr s.nsOf))
    (hns : s.nsOf = none → nsStr encl = "") {x : String} (hx : s.fullName? = some x) (hk : x ∉ K)
    (h : schemaToJson lk n s encl K = some (j, K')) :
    ∃ evs, events (nsStr encl) j = .defn x :: evs := by
  cases n with
  | zero => simp [schemaToJson] at h
  | succ n =>
    cases s with
    | record nm ns doc fs er al ps =>
      simp only [Schema.fullName?, Option.some.injEq] at hx
      simp only [schemaToJson] at h
      simp only [Schema.nsOf] at hns
      obtain ⟨⟨⟨hd, -, -⟩, hps⟩, -⟩ := hok
      cases hpre : namedTypePreamble (if er = true then "error" else "record") nm ns doc K encl with
      | error bare => exact absurd (hx ▸ (preamble_error hpre).1) hk
      | ok okv =>
        obtain ⟨obj, K1⟩ := okv
        rw [hpre] at h
        simp only at h
        obtain ⟨hnot, rfl, htype, hname, hnsp, -⟩ := preamble_ok hpre
        split at h
        · cases h
        · rename_i fj K2 hma
          simp only [Option.some.injEq, Prod.mk.injEq] at h
          obtain ⟨rfl, rfl⟩ := h
          have hg : ∀ k, k ∈ ["type", "name", "namespace"] →
              (finishNamedType (JMap.insert "fields" (.arr fj) obj) ps al ns).get? k
                = obj.get? k := by
            intro k hk
            have : k ∈ ["type", "name", "namespace", "doc", "fields", "aliases"] ∧
                k ≠ "aliases" ∧ k ≠ "fields" := by
              simp only [List.mem_cons, List.not_mem_nil, or_false] at hk
              rcases hk with rfl | rfl | rfl <;> decide
            rw [finish_get? hps this.1 this.2.1]
            simp [JMap.get?_insert, this]
          have hdef := defName_eq (encl := encl)
            (m := finishNamedType (JMap.insert "fields" (.arr fj) obj) ps al ns)
            hd hns (by rw [hg _ (by decide), hname]) (by rw [hg _ (by decide), hnsp])
          cases er <;> simp [events, strAttr, attr_eq_get?, hg, htype, hdef, hx]
    | enum nm ns doc sy df al ps =>
      simp only [Schema.fullName?, Option.some.injEq] at hx
      simp only [schemaToJson] at h
      simp only [Schema.nsOf] at hns
      obtain ⟨⟨hd, -, -⟩, hps⟩ := hok
      cases hpre : namedTypePreamble "enum" nm ns doc K encl with
      | error bare => exact absurd (hx ▸ (preamble_error hpre).1) hk
      | ok okv =>
        obtain ⟨obj, K1⟩ := okv
        rw [hpre] at h
        simp only [Option.some.injEq, Prod.mk.injEq] at h
        obtain ⟨hnot, rfl, htype, hname, hnsp, -⟩ := preamble_ok hpre
        obtain ⟨rfl, rfl⟩ := h
        have hg : ∀ k, k ∈ ["type", "name", "namespace"] →
            (finishNamedType (enumObj sy df obj) ps al ns).get? k = obj.get? k := by
          intro k hk
          have : k ∈ ["type", "name", "namespace", "doc", "symbols", "default", "aliases"] ∧
              k ≠ "aliases" ∧ k ≠ "symbols" ∧ k ≠ "default" := by
            simp only [List.mem_cons, List.not_mem_nil, or_false] at hk
            rcases hk with rfl | rfl | rfl <;> decide
          rw [finish_get? hps this.1 this.2.1]
          unfold enumObj
          cases df <;> simp [JMap.get?_insert, this]
        have hdef := defName_eq (encl := encl) (m := finishNamedType (enumObj sy df obj) ps al ns)
          hd hns (by rw [hg _ (by decide), hname]) (by rw [hg _ (by decide), hnsp])
        simp [events, strAttr, attr_eq_get?, hg, htype, hdef, hx]
    | fixed nm ns doc sz al ps =>
      simp only [Schema.fullName?, Option.some.injEq] at hx
      simp only [schemaToJson] at h
      simp only [Schema.nsOf] at hns
      obtain ⟨⟨hd, -, -⟩, hps⟩ := hok
      cases hpre : namedTypePreamble "fixed" nm ns doc K encl with
      | error bare => exact absurd (hx ▸ (preamble_error hpre).1) hk
      | ok okv =>
        obtain ⟨obj, K1⟩ := okv
        rw [hpre] at h
        simp only [Option.some.injEq, Prod.mk.injEq] at h
        obtain ⟨hnot, rfl, htype, hname, hnsp, -⟩ := preamble_ok hpre
        obtain ⟨rfl, rfl⟩ := h
        have hg : ∀ k, k ∈ ["type", "name", "namespace"] →
            (finishNamedType (JMap.insert "size" (.num (.int sz)) obj) ps al ns).get? k
              = obj.get? k := by
          intro k hk
          have : k ∈ ["type", "name", "namespace", "doc", "size", "aliases"] ∧
              k ≠ "aliases" ∧ k ≠ "size" := by
            simp only [List.mem_cons, List.not_mem_nil, or_false] at hk
            rcases hk with rfl | rfl | rfl <;> decide
          rw [finish_get? hps this.1 this.2.1]
          simp [JMap.get?_insert, this]
        have hdef := defName_eq (encl := encl)
          (m := finishNamedType (JMap.insert "size" (.num (.int sz)) obj) ps al ns)
          hd hns (by rw [hg _ (by decide), hname]) (by rw [hg _ (by decide), hnsp])
        simp [events, strAttr, attr_eq_get?, hg, htype, hdef, hx]
    | _ => simp [Schema.IsNamed] at hn

theorem IsNamed_fullName {s : Schema} (h : s.IsNamed) : ∃ x, s.fullName? = some x := by
  cases s <;> simp_all [Schema.IsNamed, Schema.fullName?]

theorem types_events {d : Option String} {types : List Schema} (H : TableOk d types) (n : Nat) :
    ∀ (ts : List Schema), (∀ t ∈ ts, t ∈ types) → ∀ K js K',
      mapAccum (fun s k => schemaToJson (buildLookup types d) n s d k) ts K = some (js, K') →
      run ((js.filter fun v => !v.isStr).flatMap (events (nsStr d))) K = some K' ∧
      (∀ x ∈ K, x ∈ K') ∧ (∀ x ∈ fullNames ts, x ∈ K') ∧
      ((∀ x ∈ K, x ∈ fullNames types) → ∀ x ∈ K', x ∈ fullNames types) := by
  intro ts
  induction ts with
  | nil =>
    intro _ K js K' h
    simp only [mapAccum, Option.some.injEq, Prod.mk.injEq] at h
    obtain ⟨rfl, rfl⟩ := h
    exact ⟨rfl, fun _ h => h, by simp [fullNames], fun h => h⟩
  | cons t ts ih =>
    intro hts K js K' h
    simp only [mapAccum] at h
    cases h1 : schemaToJson (buildLookup types d) n t d K with
    | none => rw [h1] at h; cases h
    | some r =>
      obtain ⟨j, K1⟩ := r
      rw [h1] at h
      simp only at h
      cases h2 : mapAccum (fun s k => schemaToJson (buildLookup types d) n s d k) ts K1 with
      | none => rw [h2] at h; cases h
      | some r =>
        obtain ⟨js2, K2⟩ := r
        rw [h2] at h
        simp only [Option.some.injEq, Prod.mk.injEq] at h
        obtain ⟨rfl, rfl⟩ := h
        obtain ⟨i1, i2, i3, i4⟩ := ih (fun t ht => hts t (List.mem_cons_of_mem _ ht)) K1 js2 K2 h2
        have ht : t ∈ types := hts t (by simp)
        have hnamed := Schema.isNamed_of_flatDef (H.flat t ht)
        obtain ⟨x, hx⟩ := IsNamed_fullName hnamed
        have hgrow := ser_known_grows _ H.lookupNamed n h1
        have hxK1 := ser_named_known _ H.lookupNamed n hx hnamed h1
        refine ⟨?_, fun y hy => i2 y (hgrow y hy), ?_, ?_⟩
        · by_cases hk : x ∈ K
          · obtain ⟨hstr, rfl⟩ := ser_known_str hnamed hx hk h1
            simp only [List.filter_cons, hstr, Bool.not_true]
            exact i1
          · have hobj := ser_new_obj hnamed hx hk h1
            simp only [List.filter_cons, hobj, Bool.not_false, if_true, List.flatMap_cons]
            rw [run_append, (ser_events _ H.lookupOk n).2 t d K j K1 hnamed ?_ (H.ns t ht) ?_ h1]
            · exact i1
            · rw [H.has_eq]; exact H.out t ht
            · intro full hf
              rw [hx] at hf
              cases hf
              exact hk
        · intro y hy
          rw [mem_fullNames] at hy
          obtain ⟨t', ht', hy⟩ := hy
          rcases List.mem_cons.mp ht' with rfl | ht'
          · rw [hx] at hy; cases hy; exact i2 x hxK1
          · exact i3 y (mem_fullNames.mpr ⟨t', ht', hy⟩)
        · intro hK
          apply i4
          refine ser_known_sub _ (· ∈ fullNames types) ?_ n t d K j K1
            (.inr ⟨H.flat t ht, x, hx, mem_fullNames.mpr ⟨t, ht, hx⟩⟩) hK h1
          intro k t' hl
          obtain ⟨hm, hf⟩ := H.lookup_iff.mp hl
          exact ⟨H.flat t' hm, k, hf, mem_fullNames.mpr ⟨t', hm, hf⟩⟩

theorem get?_protocolObj {p : Protocol} (hp : p.props.Avoids ["protocol", "namespace", "doc", "types", "messages"])
    (types : List Json) (msgs : List (String × Json)) :
    (protocolObj p types msgs).get? "types" = some (.arr (types.filter fun v => !v.isStr)) ∧
    (protocolObj p types msgs).get? "messages" = some (.obj (JMap.insertAll [] msgs)) ∧
    (strAttr "namespace" (protocolObj p types msgs)).getD "" = nsStr p.ns := by
  refine ⟨?_, ?_, ?_⟩
  · simp [protocolObj, JMap.get?_insert]
  · simp [protocolObj, JMap.get?_insert]
  · simp only [strAttr, attr_eq_get?, protocolObj]
    rw [JMap.get?_insert_ne _ _ (by decide), JMap.get?_insert_ne _ _ (by decide),
      get?_insertAll_avoid hp (by decide)]
    cases p.ns with
    | none => cases p.doc <;> simp [JMap.get?_insert, JMap.get?, nsStr]
    | some ns =>
      by_cases hns : ns = ""
      · subst hns; cases p.doc <;> simp [JMap.get?_insert, JMap.get?, nsStr]
      · cases p.doc <;> simp [hns, JMap.get?_insert, nsStr]

theorem protocol_events {p : Protocol} (H : ProtocolOk p) {n : Nat} {j : Json}
    (h : protocolToJson n p = some j) :
    ∃ K, run (protocolEvents j) [] = some K ∧ ∀ x, x ∈ K ↔ x ∈ fullNames p.types := by
  unfold protocolToJson at h
  cases h1 : mapAccum (fun s k => schemaToJson (buildLookup p.types p.ns) n s p.ns k) p.types [] with
  | none => simp only [h1] at h; cases h
  | some r =>
    obtain ⟨types, K⟩ := r
    simp only [h1] at h
    obtain ⟨t1, -, t3, t4⟩ := types_events H.table n p.types (fun _ h => h) [] types K h1
    have hK : ∀ x, x ∈ K ↔ x ∈ fullNames p.types := fun x => ⟨t4 (by simp) x, t3 x⟩
    cases h2 : mapAccum (fun (nm : String × Message) k =>
        (messageToJson (buildLookup p.types p.ns) n p.ns nm.2 k).map fun jk => ((nm.1, jk.1), jk.2))
        p.messages K with
    | none => simp only [h2] at h; cases h
    | some r =>
      obtain ⟨msgs, K2⟩ := r
      simp only [h2, Option.some.injEq] at h
      subst h
      refine ⟨K, ?_, hK⟩
      obtain ⟨g1, g2, g3⟩ := get?_protocolObj H.props types msgs
      simp only [protocolEvents, attr_eq_get?, g1, g2, g3, eventsList_eq]
      rw [run_append, t1]
      simp only [Option.bind_some]
      apply run_flatMap_same
      intro kv hkv
      have hmem : kv ∈ msgs := (mem_insertAll hkv).resolve_right (by simp)
      have hfn : (fun x => x ∈ fullNames p.types) = (fun x => x ∈ K) :=
        funext fun x => propext (hK x).symm
      have hmsgs := H.messages
      rw [hfn] at hmsgs
      have hhas : ∀ x ∈ K, (buildLookup p.types p.ns).Has x := fun x hx =>
        H.table.has_iff.mpr ((hK x).mp hx)
      -- every serialized message only refers to known names
      have key : ∀ (l : List (String × Message)), (∀ nm ∈ l, nm ∈ p.messages) →
          ∀ msgs K2, mapAccum (fun (nm : String × Message) k =>
            (messageToJson (buildLookup p.types p.ns) n p.ns nm.2 k).map
              fun jk => ((nm.1, jk.1), jk.2)) l K = some (msgs, K2) →
          K2 = K ∧ ∀ kv ∈ msgs, run (messageEvents (nsStr p.ns) kv.2) K = some K := by
        intro l
        induction l with
        | nil =>
          intro _ msgs K2 h
          simp only [mapAccum, Option.some.injEq, Prod.mk.injEq] at h
          obtain ⟨rfl, rfl⟩ := h
          exact ⟨rfl, by simp⟩
        | cons nm l ih =>
          intro hl msgs K2 h
          simp only [mapAccum] at h
          cases hm : messageToJson (buildLookup p.types p.ns) n p.ns nm.2 K with
          | none => simp only [hm, Option.map_none] at h; cases h
          | some r =>
            obtain ⟨j, K3⟩ := r
            obtain ⟨rfl, hrun⟩ := message_events H.table.lookupOk hhas
              (hmsgs nm (hl nm (by simp))) hm
            simp only [hm, Option.map_some] at h
            split at h
            · cases h
            · rename_i bs s2 hrest
              simp only [Option.some.injEq, Prod.mk.injEq] at h
              obtain ⟨rfl, rfl⟩ := h
              obtain ⟨rfl, hrest⟩ := ih (fun nm h => hl nm (List.mem_cons_of_mem _ h)) _ _ hrest
              refine ⟨rfl, ?_⟩
              intro kv hkv
              rcases List.mem_cons.mp hkv with rfl | hkv
              · exact hrun
              · exact hrest kv hkv
      exact (key p.messages (fun _ h => h) msgs K2 h2).2 kv hmem

theorem run_defs {es : List Ev} {K K' : List String} (h : run es K = some K') :
    K' = (defs es).reverse ++ K := by
  induction es generalizing K with
  | nil => simp only [run, Option.some.injEq] at h; simp [defs, h]
  | cons e es ih =>
    cases e with
    | defn x =>
      simp only [run] at h
      split at h
      · cases h
      · rw [ih h]; simp [defs]
    | use x =>
      simp only [run] at h
      split at h
      · simpa only [defs] using ih h
      · cases h

theorem run_nodup {es : List Ev} {K K' : List String} (hK : K.Nodup) (h : run es K = some K') :
    K'.Nodup := by
  induction es generalizing K with
  | nil => simp only [run, Option.some.injEq] at h; exact h ▸ hK
  | cons e es ih =>
    cases e with
    | defn x =>
      simp only [run] at h
      split at h
      · cases h
      · rename_i hx; exact ih (List.nodup_cons.mpr ⟨hx, hK⟩) h
    | use x =>
      simp only [run] at h
      split at h
      · exact ih hK h
      · cases h

/-- In an accepted event sequence each use is preceded by a definition. -/
theorem run_use {es : List Ev} {K K' : List String} (h : run es K = some K') {a b : List Ev}
    {x : String} (hs : es = a ++ .use x :: b) : x ∈ defs a ∨ x ∈ K := by
  subst hs
  rw [run_append] at h
  cases ha : run a K with
  | none => rw [ha] at h; cases h
  | some K1 =>
    rw [ha] at h
    simp only [Option.bind_some, run] at h
    split at h
    · rename_i hx
      rw [run_defs ha] at hx
      simpa using hx
    · cases h

end Avdl
