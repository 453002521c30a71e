import Verif.Lemmas.Split
import Verif.Spec.Rearrange
import Verif.Props.Compile
/-!
# Lemmas for C67
-/

namespace Avdl
open Spec BareOutput BareReader BareCompile

/-! ### The definition of a name -/

section
variable [CharTables]

/-- The schema may become the definition of the name. -/
def Candidate (x : String) (s : Schema) : Prop := s.fullName? = some x ∧ Props.Acceptable s

open Classical in
/-- The first schema that may become the definition of the name. -/
noncomputable def firstNamed (x : String) (l : List Schema) : Option Schema :=
  l.find? fun s => decide (Candidate x s)

theorem firstNamed_append (x : String) (l l' : List Schema) :
    firstNamed x (l ++ l') = (firstNamed x l).or (firstNamed x l') := by
  unfold firstNamed
  rw [List.find?_append]

theorem firstNamed_cons_pos {x : String} {s : Schema} (h : Candidate x s) (l : List Schema) :
    firstNamed x (s :: l) = some s := by
  unfold firstNamed
  rw [List.find?_cons_of_pos (by simpa using h)]

theorem firstNamed_cons_neg {x : String} {s : Schema} (h : ¬ Candidate x s) (l : List Schema) :
    firstNamed x (s :: l) = firstNamed x l := by
  unfold firstNamed
  rw [List.find?_cons_of_neg (by simpa using h)]

theorem firstNamed_none {x : String} {l : List Schema} :
    firstNamed x l = none ↔ ∀ s ∈ l, ¬ Candidate x s := by
  unfold firstNamed
  simp

theorem firstNamed_some {x : String} {l : List Schema} {s : Schema} (h : firstNamed x l = some s) :
    s ∈ l ∧ Candidate x s := by
  unfold firstNamed at h
  exact ⟨List.mem_of_find?_eq_some h, by simpa using List.find?_some h⟩

theorem definition_firstAccepted {x : String} {l : List Schema} : ∀ {seen : List String}, x ∉ seen →
    definition (Props.firstAccepted seen l) x = firstNamed x l := by
  induction l with
  | nil => intro seen _; rfl
  | cons s l ih =>
    intro seen hx
    rw [Props.firstAccepted]
    cases hf : s.fullName? with
    | none =>
      dsimp only
      rw [ih hx, firstNamed_cons_neg (by intro h; have h := h.1; rw [hf] at h; cases h)]
    | some full =>
      dsimp only
      split
      · rename_i hc
        by_cases he : full = x
        · subst he
          rw [firstNamed_cons_pos ⟨hf, hc.1⟩]
          simp [definition]
        · rw [firstNamed_cons_neg (by
            intro h; have h := h.1; rw [hf] at h; injection h with h; exact he h),
            ← ih (seen := full :: seen) (by simp [hx, Ne.symm he])]
          simp [definition, he]
      · rename_i hc
        rw [ih hx, firstNamed_cons_neg]
        intro h
        have h1 := h.1
        rw [hf] at h1
        injection h1 with he
        subst he
        exact hc ⟨h.2, hx⟩

theorem definition_accepted (x : String) (l : List Schema) :
    definition (Props.firstAccepted [] l) x = firstNamed x l := definition_firstAccepted (by simp)

theorem mem_names_iff {l : List Schema} {x : String} :
    x ∈ (Props.firstAccepted [] l).map Prod.fst ↔ firstNamed x l ≠ none := by
  rw [← definition_accepted]
  unfold definition
  constructor
  · intro h hn
    obtain ⟨kt, hk, rfl⟩ := List.mem_map.mp h
    rw [Option.map_eq_none_iff, List.find?_eq_none] at hn
    exact hn kt hk (by simp)
  · intro h
    cases hf : List.find? (fun kt => kt.1 == x) (Props.firstAccepted [] l) with
    | none => rw [hf] at h; exact absurd rfl h
    | some kt =>
      have h1 := List.mem_of_find?_eq_some hf
      have h2 := List.find?_some hf
      simp only [beq_iff_eq] at h2
      exact List.mem_map.mpr ⟨kt, h1, h2⟩

theorem candidate_bare {x : String} {s s' : Schema} (h : s.bare = s'.bare) (hc : Candidate x s) :
    Candidate x s' := by
  obtain ⟨h1, n, ns, h2, h3⟩ := hc
  refine ⟨by rw [← fullName_bare, ← h, fullName_bare]; exact h1, n, ns, ?_, h3⟩
  cases h2 <;> cases s' <;> simp only [Schema.bare, Schema.record.injEq, Schema.enum.injEq,
    Schema.fixed.injEq, reduceCtorEq] at h
  · rw [h.1, h.2.1]; exact .record
  · rw [h.1, h.2.1]; exact .enum
  · rw [h.1, h.2.1]; exact .fixed

/-- The declared types and the imported ones, for each name. -/
def Declares (es : List Event) : Prop :=
  ∀ s ∈ idlTypes es, ∃ x, Candidate x s ∧ firstNamed x (es.flatMap Event.types) = some s

theorem firstNamed_imported {x : String} {es : List Event} (h : ∀ s ∈ idlTypes es, ¬ Candidate x s) :
    firstNamed x (es.flatMap Event.types) = firstNamed x (importedTypes es) := by
  induction es with
  | nil => rfl
  | cons ev es ih =>
    cases ev with
    | type s a b =>
      rw [List.flatMap_cons]
      show firstNamed x (s :: es.flatMap Event.types) = firstNamed x (importedTypes es)
      rw [firstNamed_cons_neg (h s (by simp [idlTypes])),
        ih fun t ht => h t (by simp only [idlTypes, List.filterMap_cons]; exact List.mem_cons_of_mem _ ht)]
    | schema p j sp =>
      show firstNamed x (_ ++ es.flatMap Event.types) = firstNamed x (_ ++ importedTypes es)
      rw [firstNamed_append, firstNamed_append, ih h]
    | protocol p j sp =>
      show firstNamed x (_ ++ es.flatMap Event.types) = firstNamed x (_ ++ importedTypes es)
      rw [firstNamed_append, firstNamed_append, ih h]
    | idl p a f ws => exact ih h

end

/-! ### Rearranged events -/

/-- The same events but for the order of declarations, up to source positions. -/
structure Shuffled (es es' : List Event) : Prop where
  types : ((idlTypes es).map Schema.bare).Perm ((idlTypes es').map Schema.bare)
  imported : importedTypes es = importedTypes es'
  messages : es.flatMap Event.messages = es'.flatMap Event.messages
  events : ∀ ev ∈ es', (∃ s a b, ev = .type s a b) ∨ ∃ ev' ∈ es, SameEvent ev' ev

theorem idlTypes_append (a b : List Event) : idlTypes (a ++ b) = idlTypes a ++ idlTypes b := by
  simp [idlTypes]

theorem importedTypes_append (a b : List Event) :
    importedTypes (a ++ b) = importedTypes a ++ importedTypes b := by
  simp [importedTypes]

theorem sameEvents_idlTypes {es es' : List Event} (h : List.Forall₂ SameEvent es es') :
    (idlTypes es).map Schema.bare = (idlTypes es').map Schema.bare := by
  induction h with
  | nil => rfl
  | cons h _ ih =>
    cases h with
    | type h => simp only [idlTypes, List.filterMap_cons, List.map_cons, h]; exact congrArg _ ih
    | schema => exact ih
    | protocol => exact ih
    | idl => exact ih

theorem sameEvents_importedTypes {es es' : List Event} (h : List.Forall₂ SameEvent es es') :
    importedTypes es = importedTypes es' := by
  induction h with
  | nil => rfl
  | cons h _ ih =>
    unfold importedTypes at ih ⊢
    rw [List.flatMap_cons, List.flatMap_cons, ih]
    cases h <;> rfl

section
variable [CharTables] [FloatTables] [CaseTables]
variable {w : World} {dirs : List Path}

theorem Spec.Trace.same {dir : Path} {S S' : List Path} {items : List DeclItem}
    {es : List Event} (h : Trace w dirs dir S items es (.finished S')) :
    ∀ {items' : List DeclItem}, SameDecls items items' →
      ∃ es', Trace w dirs dir S items' es' (.finished S') ∧ List.Forall₂ SameEvent es es' := by
  generalize he : Ending.finished S' = e at h
  induction h generalizing S' with
  | nil => intro items' hd; cases hd; exact ⟨[], .nil, .nil⟩
  | cut => cases he
  | notFound => cases he
  | notCanonical => cases he
  | badJson => cases he
  | badIdl => cases he
  | idlEnds _ _ _ _ _ hne => exact absurd he.symm (hne _)
  | type _ ih =>
    intro items' hd
    cases hd with
    | cons hx hd =>
      cases hx with
      | type hb =>
        obtain ⟨es', h1, h2⟩ := ih he hd
        exact ⟨_, .type h1, .cons (.type hb) h2⟩
  | again hto hp _ ih =>
    intro items' hd
    cases hd with
    | cons hx hd =>
      cases hx with
      | import_ hk hpath =>
        obtain ⟨es', h1, h2⟩ := ih he hd
        exact ⟨_, .again (hpath ▸ hto) hp h1, h2⟩
  | schema hto hp hk' hr _ ih =>
    intro items' hd
    cases hd with
    | cons hx hd =>
      cases hx with
      | import_ hk hpath =>
        obtain ⟨es', h1, h2⟩ := ih he hd
        exact ⟨_, .schema (hpath ▸ hto) hp (hk ▸ hk') hr h1, .cons .schema h2⟩
  | protocol hto hp hk' hr _ ih =>
    intro items' hd
    cases hd with
    | cons hx hd =>
      cases hx with
      | import_ hk hpath =>
        obtain ⟨es', h1, h2⟩ := ih he hd
        exact ⟨_, .protocol (hpath ▸ hto) hp (hk ▸ hk') hr h1, .cons .protocol h2⟩
  | idl hto hp hk' hr h1 _ _ ih2 =>
    intro items' hd
    cases hd with
    | cons hx hd =>
      cases hx with
      | import_ hk hpath =>
        obtain ⟨es2, b1, b2⟩ := ih2 he hd
        refine ⟨_, .idl (hpath ▸ hto) hp (hk ▸ hk') hr h1 b1, ?_⟩
        rw [← hpath]
        exact .cons .idl (List.rel_append (sameEvents_refl _) b2)

/-- The trace of the imports alone. -/
theorem Spec.Trace.imports {dir : Path} {S S' : List Path} {items : List DeclItem}
    {es : List Event} (h : Trace w dirs dir S items es (.finished S')) :
    ∃ ei, Trace w dirs dir S (importItems items) ei (.finished S') ∧
      (idlTypes es).Perm (declaredTypes items ++ idlTypes ei) ∧
      importedTypes es = importedTypes ei ∧
      es.flatMap Event.messages = ei.flatMap Event.messages ∧
      (∀ ev ∈ ei, ev ∈ es) ∧ ∀ ev ∈ es, (∃ s a b, ev = .type s a b) ∨ ev ∈ ei := by
  generalize he : Ending.finished S' = e at h
  induction h generalizing S' with
  | nil => exact ⟨[], .nil, .nil, rfl, rfl, by simp, by simp⟩
  | cut => cases he
  | notFound => cases he
  | notCanonical => cases he
  | badJson => cases he
  | badIdl => cases he
  | idlEnds _ _ _ _ _ hne => exact absurd he.symm (hne _)
  | @type dir seen s span spans items es e _ ih =>
    obtain ⟨ei, h1, h2, h3, h4, h5, h6⟩ := ih he
    refine ⟨ei, h1, ?_, h3, h4, fun ev hev => List.mem_cons_of_mem _ (h5 ev hev), ?_⟩
    · show (s :: idlTypes es).Perm (s :: (declaredTypes items ++ idlTypes ei))
      exact h2.cons s
    · intro ev hev
      rcases List.mem_cons.mp hev with rfl | hev
      · exact .inl ⟨_, _, _, rfl⟩
      · exact h6 ev hev
  | again hto hp _ ih =>
    obtain ⟨ei, h1, h2, h3, h4, h5, h6⟩ := ih he
    exact ⟨ei, .again hto hp h1, h2, h3, h4, h5, h6⟩
  | @schema dir seen i p j items es e hto hp hk' hr _ ih =>
    obtain ⟨ei, h1, h2, h3, h4, h5, h6⟩ := ih he
    refine ⟨_ :: ei, .schema hto hp hk' hr h1, h2, ?_, ?_, ?_, ?_⟩
    · show _ ++ importedTypes es = _ ++ importedTypes ei
      rw [h3]
    · rw [List.flatMap_cons, List.flatMap_cons, h4]
    · intro ev hev
      rcases List.mem_cons.mp hev with rfl | hev
      · exact List.mem_cons_self
      · exact List.mem_cons_of_mem _ (h5 ev hev)
    · intro ev hev
      rcases List.mem_cons.mp hev with rfl | hev
      · exact .inr List.mem_cons_self
      · exact (h6 ev hev).imp_right (List.mem_cons_of_mem _)
  | @protocol dir seen i p j items es e hto hp hk' hr _ ih =>
    obtain ⟨ei, h1, h2, h3, h4, h5, h6⟩ := ih he
    refine ⟨_ :: ei, .protocol hto hp hk' hr h1, h2, ?_, ?_, ?_, ?_⟩
    · show _ ++ importedTypes es = _ ++ importedTypes ei
      rw [h3]
    · rw [List.flatMap_cons, List.flatMap_cons, h4]
    · intro ev hev
      rcases List.mem_cons.mp hev with rfl | hev
      · exact List.mem_cons_self
      · exact List.mem_cons_of_mem _ (h5 ev hev)
    · intro ev hev
      rcases List.mem_cons.mp hev with rfl | hev
      · exact .inr List.mem_cons_self
      · exact (h6 ev hev).imp_right (List.mem_cons_of_mem _)
  | @idl dir seen i p file decls ws items es seen' es' e hto hp hk' hr h0 _ _ ih2 =>
    obtain ⟨ei, h1, h2, h3, h4, h5, h6⟩ := ih2 he
    refine ⟨_ :: (es ++ ei), .idl hto hp hk' hr h0 h1, ?_, ?_, ?_, ?_, ?_⟩
    · show (idlTypes (es ++ es')).Perm (declaredTypes items ++ idlTypes (es ++ ei))
      rw [idlTypes_append, idlTypes_append, ← List.append_assoc]
      refine (h2.append_left _).trans ?_
      rw [← List.append_assoc]
      exact List.perm_append_comm.append_right _
    · show importedTypes (es ++ es') = importedTypes (es ++ ei)
      rw [importedTypes_append, importedTypes_append, h3]
    · simp only [List.flatMap_cons, List.flatMap_append, h4]
    · intro ev hev
      rcases List.mem_cons.mp hev with rfl | hev
      · exact List.mem_cons_self
      · rcases List.mem_append.mp hev with hev | hev
        · exact List.mem_cons_of_mem _ (List.mem_append_left _ hev)
        · exact List.mem_cons_of_mem _ (List.mem_append_right _ (h5 ev hev))
    · intro ev hev
      rcases List.mem_cons.mp hev with rfl | hev
      · exact .inr List.mem_cons_self
      · rcases List.mem_append.mp hev with hev | hev
        · exact .inr (List.mem_cons_of_mem _ (List.mem_append_left _ hev))
        · exact (h6 ev hev).imp_right fun h => List.mem_cons_of_mem _ (List.mem_append_right _ h)

/-- The trace of all declarations, from that of the imports. -/
theorem Spec.Trace.withTypes {dir : Path} {S' : List Path} {items : List DeclItem} :
    ∀ {S : List Path} {ei : List Event},
      Trace w dirs dir S (importItems items) ei (.finished S') →
      ∃ es, Trace w dirs dir S items es (.finished S') := by
  induction items with
  | nil => intro S ei h; exact ⟨ei, h⟩
  | cons d items ih =>
    intro S ei h
    cases d with
    | type s a b =>
      obtain ⟨es, h⟩ := ih (show Trace w dirs dir S (importItems items) ei _ from h)
      exact ⟨_, .type h⟩
    | import_ i =>
      replace h : Trace w dirs dir S (.import_ i :: importItems items) ei (.finished S') := h
      generalize he : Ending.finished S' = e at h
      cases h with
      | cut => cases he
      | notFound => cases he
      | notCanonical => cases he
      | badJson => cases he
      | badIdl => cases he
      | idlEnds _ _ _ _ _ hne => exact absurd he.symm (hne _)
      | again hto hp h => subst he; obtain ⟨es, h⟩ := ih h; exact ⟨_, .again hto hp h⟩
      | schema hto hp hk hr h =>
        subst he; obtain ⟨es, h⟩ := ih h; exact ⟨_, .schema hto hp hk hr h⟩
      | protocol hto hp hk hr h =>
        subst he; obtain ⟨es, h⟩ := ih h; exact ⟨_, .protocol hto hp hk hr h⟩
      | idl hto hp hk hr h0 h =>
        subst he; obtain ⟨es, h⟩ := ih h; exact ⟨_, .idl hto hp hk hr h0 h⟩

omit [CharTables] [FloatTables] [CaseTables] in
theorem Spec.Rearranged.symm {items items' : List DeclItem} (h : Rearranged items items') :
    Rearranged items' items := ⟨h.imports.symm, h.types.symm⟩

/-- The traces of rearranged declarations. -/
theorem Spec.Rearranged.trace {items items' : List DeclItem} (hr : Rearranged items items')
    {dir : Path} {S S' : List Path} {es : List Event}
    (h : Trace w dirs dir S items es (.finished S')) :
    ∃ es', Trace w dirs dir S items' es' (.finished S') ∧ Shuffled es es' := by
  obtain ⟨ei, a1, a2, a3, a4, a5, _⟩ := h.imports
  obtain ⟨ei', b1, b2⟩ := a1.same hr.imports
  obtain ⟨es', c1⟩ := b1.withTypes
  obtain ⟨ei2, d1, d2, d3, d4, _, d6⟩ := c1.imports
  have := Props.C21_trace_determined d1 b1
  subst this
  refine ⟨es', c1, ⟨?_, ?_, ?_, ?_⟩⟩
  · refine (a2.map _).trans (.trans ?_ (d2.map _).symm)
    rw [List.map_append, List.map_append, sameEvents_idlTypes b2]
    exact hr.types.append_right _
  · rw [a3, d3, sameEvents_importedTypes b2]
  · rw [a4, d4, sameEvents_messages b2]
  · intro ev hev
    refine (d6 ev hev).imp_right fun h => ?_
    obtain ⟨k, hk, rfl⟩ := List.mem_iff_getElem.mp h
    have hl := b2.length_eq
    exact ⟨ei[k]'(by omega), a5 _ (List.getElem_mem _), (List.forall₂_iff_get.mp b2).2 k (by omega) hk⟩

end

end Avdl
