import Verif.Lemmas.Rearrange
import Verif.Props.Split
import Mathlib.Data.List.Induction
/-!
# More lemmas for C67: which rearrangements go through
-/

namespace Avdl
open Spec BareOutput BareReader BareCompile Props

/-! ### Conformance and the definitions known -/

/-- What is known in the one is known in the other, up to source positions. -/
def KnownIn (r r' : String → Option Schema) : Prop :=
  ∀ x t, r x = some t → ∃ t', r' x = some t' ∧ t'.bare = t.bare

theorem mem_bare_back {l l' : List Schema} (h : l.map Schema.bare = l'.map Schema.bare) {t : Schema}
    (ht : t ∈ l) : ∃ t' ∈ l', t.bare = t'.bare := by
  have : t.bare ∈ l'.map Schema.bare := h ▸ List.mem_map_of_mem ht
  obtain ⟨t', h1, h2⟩ := List.mem_map.mp this
  exact ⟨t', h1, h2.symm⟩

theorem mem_field_back {l l' : List Field} (h : l.map Field.bare = l'.map Field.bare) {f : Field}
    (hf : f ∈ l) : ∃ f' ∈ l', f.bare = f'.bare := by
  have : f.bare ∈ l'.map Field.bare := h ▸ List.mem_map_of_mem hf
  obtain ⟨t', h1, h2⟩ := List.mem_map.mp this
  exact ⟨t', h1, h2.symm⟩

theorem field_bare_eq {f f' : Field} (h : f.bare = f'.bare) :
    f.name = f'.name ∧ f.schema.bare = f'.schema.bare ∧ f.default = f'.default := by
  cases f; cases f'
  simp only [Field.bare, Field.withSchema, Field.mk.injEq, Field.schema] at h
  exact ⟨h.1, h.2.1, by simp_all⟩

/-- Conformance needs only the definitions of the names mentioned. -/
theorem conforms_known {r r' : String → Option Schema} (hr : KnownIn r r') {V : List String}
    {v : Json} {s' : Schema} (h : ConformsU r' V v s') : ∀ {s : Schema}, s'.bare = s.bare →
      (∀ x, Mentions r s x → r x ≠ none) → ConformsU r V v s := by
  induction h with
  | prim hp => intro s he hm; cases s <;> simp only [Schema.bare, reduceCtorEq] at he; cases he; exact .prim hp
  | annotated hp =>
    intro s he hm; cases s <;> simp only [Schema.bare, reduceCtorEq] at he
    cases he; exact .annotated hp
  | logical hp =>
    intro s he hm; cases s <;> simp only [Schema.bare, reduceCtorEq] at he
    cases he; exact .logical hp
  | enum => intro s he hm; cases s <;> simp only [Schema.bare, reduceCtorEq] at he; exact .enum
  | fixed => intro s he hm; cases s <;> simp only [Schema.bare, reduceCtorEq] at he; exact .fixed
  | array _ ih =>
    intro s he hm
    cases s <;> simp only [Schema.bare, reduceCtorEq, Schema.array.injEq] at he
    exact .array fun v hv => ih v hv he.1 fun x hx => hm x (by
      cases hx with
      | here h => exact .here (.items h)
      | step h1 h2 h3 => exact .step (.items h1) h2 h3)
  | map _ ih =>
    intro s he hm
    cases s <;> simp only [Schema.bare, reduceCtorEq, Schema.map.injEq] at he
    exact .map fun v hv => ih v hv he.1 fun x hx => hm x (by
      cases hx with
      | here h => exact .here (.values h)
      | step h1 h2 h3 => exact .step (.values h1) h2 h3)
  | union ht _ ih =>
    intro s he hm
    cases s <;> simp only [Schema.bare, reduceCtorEq, Schema.union.injEq, bareSchemas_map] at he
    obtain ⟨t', h1, h2⟩ := mem_bare_back he.1 ht
    exact .union h1 (ih h2 fun x hx => hm x (by
      cases hx with
      | here h => exact .here (.branch h1 h)
      | step h3 h4 h5 => exact .step (.branch h1 h3) h4 h5))
  | record _ hd ih =>
    intro s he hm
    cases s <;> simp only [Schema.bare, reduceCtorEq, Schema.record.injEq, bareFields_map] at he
    obtain ⟨rfl, rfl, _, hfs, _⟩ := he
    refine .record (fun f hf v hv => ?_) (fun f hf hl => ?_)
    · obtain ⟨f', h1, h2⟩ := mem_field_back hfs.symm hf
      obtain ⟨e1, e2, _⟩ := field_bare_eq h2
      exact ih f' h1 v (e1 ▸ hv) e2.symm fun x hx => hm x (by
        cases hx with
        | here h => exact .here (.field hf h)
        | step h3 h4 h5 => exact .step (.field hf h3) h4 h5)
    · obtain ⟨f', h1, h2⟩ := mem_field_back hfs.symm hf
      obtain ⟨e1, _, e3⟩ := field_bare_eq h2
      rw [e3]
      exact hd f' h1 (e1 ▸ hl)
  | recursive hV =>
    intro s he hm
    cases s <;> simp only [Schema.bare, reduceCtorEq, Schema.ref.injEq] at he
    obtain ⟨rfl, rfl, _⟩ := he
    exact .recursive hV
  | ref hV ht _ ih =>
    intro s he hm
    cases s <;> simp only [Schema.bare, reduceCtorEq, Schema.ref.injEq] at he
    obtain ⟨rfl, rfl, _⟩ := he
    obtain ⟨u, hu⟩ := Option.ne_none_iff_exists'.mp (hm _ (.here .ref))
    obtain ⟨t', h1, h2⟩ := hr _ _ hu
    rw [ht] at h1
    injection h1 with h1
    subst h1
    exact .ref hV hu (ih h2 fun x hx => hm x (.step .ref hu hx))

/-- The defaults of a declaration, checked against fewer definitions. -/
theorem defaultsOk_known {r r' : String → Option Schema} (hr : KnownIn r r') {s s' : Schema}
    (he : s'.bare = s.bare) (hk : ∀ x, Mentions r' s' x → r' x ≠ none) (h : DefaultsOk r' s') :
    DefaultsOk r s := by
  intro n ns d fs e al ps hs f hf v hv hm
  subst hs
  cases s' <;> simp only [Schema.bare, reduceCtorEq, Schema.record.injEq, bareFields_map] at he
  obtain ⟨f', h1, h2⟩ := mem_field_back he.2.2.2.1.symm hf
  obtain ⟨_, e2, e3⟩ := field_bare_eq h2
  refine conforms_known hr (h _ _ _ _ _ _ _ rfl f' h1 v (e3 ▸ hv) fun x hx => hk x ?_) e2.symm hm
  cases hx with
  | here h => exact .here (.field h1 h)
  | step h3 h4 h5 => exact .step (.field h1 h3) h4 h5

section
variable [CharTables]

/-! ### Definitions after a prefix of the events -/

theorem firstNamed_prefix {x : String} {l l' : List Schema} {t : Schema} (h : firstNamed x l = some t) :
    firstNamed x (l ++ l') = some t := by rw [firstNamed_append, h]; rfl

omit [CharTables] in
theorem idlTypes_sub {es : List Event} {s : Schema} (h : s ∈ idlTypes es) :
    s ∈ es.flatMap Event.types := by
  obtain ⟨ev, hev, he⟩ := List.mem_filterMap.mp h
  cases ev with
  | type t a b => injection he with he; subst he; exact List.mem_flatMap.mpr ⟨_, hev, by simp [Event.types]⟩
  | schema => cases he
  | protocol => cases he
  | idl => cases he

omit [CharTables] in
theorem types_split {es : List Event} {t : Schema} (h : t ∈ es.flatMap Event.types) :
    t ∈ idlTypes es ∨ t ∈ importedTypes es := by
  obtain ⟨ev, hev, ht⟩ := List.mem_flatMap.mp h
  cases ev with
  | type s a b =>
    simp only [Event.types, List.mem_singleton] at ht
    exact .inl (List.mem_filterMap.mpr ⟨_, hev, by rw [ht]⟩)
  | schema => exact .inr (List.mem_flatMap.mpr ⟨_, hev, ht⟩)
  | protocol => exact .inr (List.mem_flatMap.mpr ⟨_, hev, ht⟩)
  | idl => simp [Event.types] at ht

theorem acceptable_candidate {s : Schema} (h : Acceptable s) : ∃ x, Candidate x s := by
  obtain ⟨n, ns, hn, hv⟩ := h
  cases hn with
  | record => exact ⟨_, rfl, _, _, .record, hv⟩
  | enum => exact ⟨_, rfl, _, _, .enum, hv⟩
  | fixed => exact ⟨_, rfl, _, _, .fixed, hv⟩

theorem eventsOk_append {es : List Event} {ev : Event} (h : EventsOk (es ++ [ev])) :
    EventsOk es ∧ EventOk (es.flatMap Event.types) ev :=
  ⟨fun l e l' he => h l e (l' ++ [ev]) (by rw [he]; simp), h es ev [] rfl⟩

/-- Events that go through: each declaration gives the definition of its name, and no two have the
same name. -/
theorem declares_of_ok {es : List Event} (h : EventsOk es) :
    Declares es ∧ ((idlTypes es).map Schema.fullName?).Nodup := by
  induction es using List.reverseRecOn with
  | nil => exact ⟨fun s hs => by simp [idlTypes] at hs, by simp [idlTypes]⟩
  | append_singleton es ev ih =>
    obtain ⟨h1, h2⟩ := eventsOk_append h
    obtain ⟨a1, a2⟩ := ih h1
    have hold : ∀ s ∈ idlTypes es, ∃ x, Candidate x s ∧
        firstNamed x ((es ++ [ev]).flatMap Event.types) = some s := by
      intro s hs
      obtain ⟨x, hx, hf⟩ := a1 s hs
      exact ⟨x, hx, by rw [List.flatMap_append]; exact firstNamed_prefix hf⟩
    cases ev with
    | type s a b =>
      obtain ⟨hacc, hnew, _⟩ := h2
      obtain ⟨x, hx⟩ := acceptable_candidate hacc
      have hnone : firstNamed x (es.flatMap Event.types) = none := by
        have := hnew x hx.1
        rw [mem_names_iff] at this
        exact Classical.not_not.mp this
      refine ⟨fun t ht => ?_, ?_⟩
      · rw [idlTypes_append] at ht
        rcases List.mem_append.mp ht with ht | ht
        · exact hold t ht
        · have : t = s := by simpa [idlTypes] using ht
          subst this
          refine ⟨x, hx, ?_⟩
          rw [List.flatMap_append, firstNamed_append, hnone]
          exact firstNamed_cons_pos hx _
      · rw [idlTypes_append, List.map_append]
        show (_ ++ [s.fullName?]).Nodup
        rw [List.nodup_append]
        refine ⟨a2, by simp, ?_⟩
        intro y hy z hz
        simp only [List.mem_singleton] at hz
        subst hz
        obtain ⟨t, ht, rfl⟩ := List.mem_map.mp hy
        intro he
        obtain ⟨x', hx', _⟩ := a1 t ht
        have : x' = x := by
          have h3 := hx'.1
          rw [he, hx.1] at h3
          injection h3 with h3
          exact h3.symm
        subst this
        exact firstNamed_none.mp hnone t (idlTypes_sub ht) hx'
    | schema =>
      rw [idlTypes_append]
      simp only [idlTypes, List.filterMap_cons, List.filterMap_nil, List.append_nil]
      refine ⟨fun s hs => hold s ?_, a2⟩
      rw [idlTypes_append] at hs
      simpa [idlTypes] using hs
    | protocol =>
      rw [idlTypes_append]
      simp only [idlTypes, List.filterMap_cons, List.filterMap_nil, List.append_nil]
      refine ⟨fun s hs => hold s ?_, a2⟩
      rw [idlTypes_append] at hs
      simpa [idlTypes] using hs
    | idl =>
      rw [idlTypes_append]
      simp only [idlTypes, List.filterMap_cons, List.filterMap_nil, List.append_nil]
      refine ⟨fun s hs => hold s ?_, a2⟩
      rw [idlTypes_append] at hs
      simpa [idlTypes] using hs

theorem Declares.named {es : List Event} (h : Declares es) {x : String} {s : Schema}
    (hs : s ∈ idlTypes es) (hc : Candidate x s) : firstNamed x (es.flatMap Event.types) = some s := by
  obtain ⟨y, h1, h2⟩ := h s hs
  have : y = x := by
    have h3 := h1.1
    rw [hc.1] at h3
    injection h3 with h3
    exact h3.symm
  exact this ▸ h2

/-- Rearranged events that go through give the same definitions. -/
theorem shuffled_definitions {es es' : List Event} (h : Declares es) (h' : Declares es')
    (hs : Shuffled es es') (x : String) :
    (firstNamed x (es.flatMap Event.types)).map Schema.bare =
      (firstNamed x (es'.flatMap Event.types)).map Schema.bare := by
  by_cases hx : ∃ s ∈ idlTypes es, Candidate x s
  · obtain ⟨s, h1, h2⟩ := hx
    have : s.bare ∈ (idlTypes es').map Schema.bare := hs.types.subset (List.mem_map_of_mem h1)
    obtain ⟨s', h3, h4⟩ := List.mem_map.mp this
    rw [h.named h1 h2, h'.named h3 (candidate_bare h4.symm h2)]
    simp [h4]
  · have hx1 : ∀ s ∈ idlTypes es, ¬ Candidate x s := fun s h1 h2 => hx ⟨s, h1, h2⟩
    have hx2 : ∀ s ∈ idlTypes es', ¬ Candidate x s := by
      intro s h1 h2
      have : s.bare ∈ (idlTypes es).map Schema.bare := hs.types.symm.subset (List.mem_map_of_mem h1)
      obtain ⟨s', h3, h4⟩ := List.mem_map.mp this
      exact hx1 s' h3 (candidate_bare h4.symm h2)
    rw [firstNamed_imported hx1, firstNamed_imported hx2, hs.imported]

theorem shuffled_sameDefinition {es es' : List Event} (h : Declares es) (h' : Declares es')
    (hs : Shuffled es es') (x : String) :
    SameDefinition (firstAccepted [] (es.flatMap Event.types))
      (firstAccepted [] (es'.flatMap Event.types)) x := by
  unfold SameDefinition
  rw [definition_accepted, definition_accepted]
  exact shuffled_definitions h h' hs x

/-! ### Tables with the same definitions -/

omit [CharTables] in
theorem mem_of_definition {r : List (String × Schema)} {x : String} {t : Schema}
    (h : definition r x = some t) : (x, t) ∈ r := by
  unfold definition at h
  obtain ⟨kt, h1, rfl⟩ := Option.map_eq_some_iff.mp h
  have h2 := List.mem_of_find?_eq_some h1
  have h3 := List.find?_some h1
  simp only [beq_iff_eq] at h3
  subst h3
  exact h2

omit [CharTables] in
theorem definition_of_mem {r : List (String × Schema)} (hd : (r.map Prod.fst).Nodup) {x : String}
    {t : Schema} (h : (x, t) ∈ r) : definition r x = some t := by
  unfold definition
  induction r with
  | nil => cases h
  | cons kt r ih =>
    obtain ⟨h1, h2⟩ := List.nodup_cons.mp hd
    rcases List.mem_cons.mp h with rfl | h
    · simp
    · have hne : kt.1 ≠ x := by
        rintro rfl
        exact h1 (List.mem_map.mpr ⟨_, h, rfl⟩)
      rw [List.find?_cons_of_neg (by simpa using hne)]
      exact ih h2 h

omit [CharTables] in
theorem sameDefinition_mem {r r' : List (String × Schema)} (hd : (r.map Prod.fst).Nodup)
    {x : String} (hs : SameDefinition r r' x) {t : Schema} (h : (x, t) ∈ r) :
    ∃ t', (x, t') ∈ r' ∧ t.bare = t'.bare := by
  unfold SameDefinition at hs
  rw [definition_of_mem hd h] at hs
  cases h' : definition r' x with
  | none => rw [h'] at hs; cases hs
  | some t' =>
    rw [h'] at hs
    injection hs with hs
    exact ⟨t', mem_of_definition h', hs⟩

omit [CharTables] in
theorem sameTypes_of_definitions {r r' : List (String × Schema)} (hd : (r.map Prod.fst).Nodup)
    (hd' : (r'.map Prod.fst).Nodup) (hs : ∀ x, SameDefinition r r' x) : SameTypesAnyOrder r r' := by
  have nd : ∀ {r : List (String × Schema)}, (r.map Prod.fst).Nodup →
      (r.map fun kt => (kt.1, kt.2.bare)).Nodup := by
    intro r h
    refine List.Nodup.of_map Prod.fst ?_
    rw [List.map_map]
    exact h
  have key : ∀ {r r' : List (String × Schema)}, (r.map Prod.fst).Nodup →
      (∀ x, SameDefinition r r' x) → ∀ a ∈ r.map (fun kt => (kt.1, kt.2.bare)),
      a ∈ r'.map fun kt => (kt.1, kt.2.bare) := by
    intro r r' hd hs a ha
    obtain ⟨⟨x, t⟩, h1, rfl⟩ := List.mem_map.mp ha
    obtain ⟨t', h2, h3⟩ := sameDefinition_mem hd (hs x) h1
    exact List.mem_map.mpr ⟨_, h2, by rw [h3]⟩
  exact (List.perm_ext_iff_of_nodup (nd hd) (nd hd')).mpr fun a =>
    ⟨key hd hs a, key hd' (fun x => (hs x).symm) a⟩

theorem firstAccepted_nodup (l : List Schema) : ((firstAccepted [] l).map Prod.fst).Nodup := by
  have := C08_names_unique l
  rw [C08_registry_is_first_accepted] at this
  exact this

/-- What the output refers to. -/
theorem outputRefersTo_definitions {file file' : IdlFile} {es es' : List Event}
    (hr : ∀ x, SameDefinition (firstAccepted [] (es.flatMap Event.types))
      (firstAccepted [] (es'.flatMap Event.types)) x)
    (hh : SameHeader file file')
    (hm : ∀ n, AgreeOnMessage (es.flatMap Event.messages ++ file.messages)
      (es'.flatMap Event.messages ++ file'.messages) n) {x : String}
    (h : OutputRefersTo file es x) : OutputRefersTo file' es' x := by
  cases h with
  | @type kt _ hk hx =>
    obtain ⟨t', h1, h2⟩ := sameDefinition_mem (firstAccepted_nodup _) (hr kt.1) (t := kt.2) hk
    obtain ⟨_, hx⟩ := refersTo_same h2 hx
    exact .type h1 hx
  | schema hf hx =>
    subst hf
    cases hh with
    | schema hs =>
      obtain ⟨_, hx⟩ := refersTo_same hs hx
      exact .schema rfl hx
  | named hf => subst hf; cases hh
  | @message q n m hf hl hx =>
    subst hf
    cases hh with
    | @protocol _ q' _ _ _ _ =>
      have := hm n
      unfold AgreeOnMessage at this
      simp only [IdlFile.messages] at this
      rw [hl] at this
      cases h' : lastEntry (es'.flatMap Event.messages ++ q'.messages) n with
      | none => rw [h'] at this; cases this
      | some m' =>
        rw [h'] at this
        injection this with this
        exact .message rfl h' (messageMentions_same this hx)

/-! ### Going through in another order -/

theorem names_definition {l : List Schema} {x : String} :
    x ∈ (firstAccepted [] l).map Prod.fst ↔ definition (firstAccepted [] l) x ≠ none := by
  rw [mem_names_iff, definition_accepted]

/-- Events go through in another order if all declared defaults conform in the end, and no declared
type has the name of an imported one. -/
theorem shuffled_ok {es es' : List Event} (h : EventsOk es) (hs : Shuffled es es')
    (hclash : ∀ s ∈ idlTypes es, ∀ t ∈ importedTypes es, s.fullName? ≠ t.fullName?)
    (hdef : ∀ s ∈ idlTypes es, DefaultsOk (definition (firstAccepted [] (es.flatMap Event.types))) s)
    (hrefs : ∀ kt ∈ firstAccepted [] (es.flatMap Event.types), ∀ x sp, RefersTo kt.2 x sp →
      x ∈ (firstAccepted [] (es.flatMap Event.types)).map Prod.fst) :
    EventsOk es' := by
  obtain ⟨hd, hnd⟩ := declares_of_ok h
  have hfull : ∀ {s s' : Schema}, s.bare = s'.bare → s.fullName? = s'.fullName? := by
    intro s s' h
    rw [← fullName_bare s, h, fullName_bare]
  have hnd' : ((idlTypes es').map Schema.fullName?).Nodup := by
    have e : ∀ l : List Schema, l.map Schema.fullName? = (l.map Schema.bare).map Schema.fullName? := by
      intro l
      rw [List.map_map]
      exact List.map_congr_left fun t _ => (fullName_bare t).symm
    rw [e] at hnd ⊢
    exact (hs.types.map _).nodup_iff.mp hnd
  have hback : ∀ s ∈ idlTypes es', ∃ s0 ∈ idlTypes es, s0.bare = s.bare := by
    intro s hs'
    have : s.bare ∈ (idlTypes es).map Schema.bare := hs.types.symm.subset (List.mem_map_of_mem hs')
    obtain ⟨s', h3, h4⟩ := List.mem_map.mp this
    exact ⟨s', h3, h4⟩
  -- each declaration of `es'` gives the definition of its name
  have hacc : ∀ s ∈ idlTypes es', ∃ x, Candidate x s := by
    intro s hs'
    obtain ⟨s0, h1, h2⟩ := hback s hs'
    obtain ⟨x, hx, _⟩ := hd s0 h1
    exact ⟨x, candidate_bare h2 hx⟩
  have hfresh : ∀ l s a b l', es' = l ++ .type s a b :: l' → ∀ x, Candidate x s →
      firstNamed x (l.flatMap Event.types) = none := by
    intro l s a b l' he x hx
    have hmem : s ∈ idlTypes es' := by rw [he, idlTypes_append]; simp [idlTypes]
    refine firstNamed_none.mpr fun t ht hc => ?_
    rcases types_split ht with ht | ht
    · rw [he, idlTypes_append, List.map_append, List.nodup_append] at hnd'
      refine hnd'.2.2 _ (List.mem_map_of_mem ht) s.fullName? ?_ (by rw [hc.1, hx.1])
      simp [idlTypes]
    · have ht' : t ∈ importedTypes es := by
        rw [hs.imported, he, importedTypes_append]
        exact List.mem_append_left _ ht
      obtain ⟨s0, h1, h2⟩ := hback s hmem
      exact hclash s0 h1 t ht' (by rw [hfull h2, hx.1, hc.1])
  have hd' : Declares es' := by
    intro s hs'
    obtain ⟨x, hx⟩ := hacc s hs'
    obtain ⟨ev, hev, he⟩ := List.mem_filterMap.mp hs'
    cases ev with
    | type t a b =>
      injection he with he
      subst he
      obtain ⟨l, l', rfl⟩ := List.append_of_mem hev
      refine ⟨x, hx, ?_⟩
      rw [List.flatMap_append, firstNamed_append, hfresh l t a b l' rfl x hx, List.flatMap_cons]
      exact firstNamed_cons_pos hx _
    | schema => cases he
    | protocol => cases he
    | idl => cases he
  have hsame := fun x => shuffled_sameDefinition hd hd' hs x
  intro l ev l' he
  have hev : ev ∈ es' := by rw [he]; simp
  by_cases hty : ∃ s a b, ev = .type s a b
  · obtain ⟨s, a, b, rfl⟩ := hty
    have hmem : s ∈ idlTypes es' := by rw [he, idlTypes_append]; simp [idlTypes]
    obtain ⟨x, hx⟩ := hacc s hmem
    obtain ⟨s0, h1, h2⟩ := hback s hmem
    refine ⟨hx.2, fun y hy => ?_, ?_⟩
    · have : y = x := by
        have h3 := hx.1
        rw [hy] at h3
        injection h3
      subst this
      rw [mem_names_iff, hfresh l s a b l' he y hx]
      simp
    · refine defaultsOk_known ?_ h2 ?_ (hdef s0 h1)
      · intro y t hy
        rw [definition_accepted] at hy
        have h3 : firstNamed y (es'.flatMap Event.types) = some t := by
          have := firstNamed_prefix (l' := l'.flatMap Event.types) hy
          rw [he, List.flatMap_append, List.flatMap_cons]
          simpa [Event.types] using this
        have h4 := hsame y
        unfold SameDefinition at h4
        rw [definition_accepted (l := es'.flatMap Event.types), h3] at h4
        cases h5 : definition (firstAccepted [] (es.flatMap Event.types)) y with
        | none => rw [h5] at h4; cases h4
        | some t' =>
          rw [h5] at h4
          injection h4 with h4
          exact ⟨t', rfl, h4⟩
      · obtain ⟨z, hz, hz'⟩ := hd s0 h1
        have hin : (z, s0) ∈ firstAccepted [] (es.flatMap Event.types) :=
          mem_of_definition (by rw [definition_accepted]; exact hz')
        have key : ∀ (t : Schema) (y : String),
            Mentions (definition (firstAccepted [] (es.flatMap Event.types))) t y →
            ∀ z, (z, t) ∈ firstAccepted [] (es.flatMap Event.types) →
            definition (firstAccepted [] (es.flatMap Event.types)) y ≠ none := by
          intro t y hm
          induction hm with
          | here hr => intro z hz; exact names_definition.mp (hrefs _ hz _ _ hr)
          | step _ hres _ ih => intro z hz; exact ih _ (mem_of_definition hres)
        exact fun y hy => key s0 y hy z hin
  · obtain ⟨ev0, h1, h2⟩ := (hs.events ev hev).resolve_left hty
    obtain ⟨l0, l0', h3⟩ := List.append_of_mem h1
    have h4 := h l0 ev0 l0' h3
    cases h2 with
    | type hb => exact absurd ⟨_, _, _, rfl⟩ hty
    | schema => exact h4
    | protocol => exact h4
    | idl => exact h4

end

end Avdl
