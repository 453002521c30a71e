import Verif.Lemmas.CompileOk
import Verif.Lemmas.ImportDefect
import Verif.Lemmas.Positions
import Verif.Spec.Problem
/-! Lemmas on which error a compilation reports. -/

namespace Avdl
open Spec

/-- The check lists the fields with bad default values. -/
theorem checkDefaults_names {res : String → Option Schema}
    (hres : ∀ y t, res y = some t → t.flatDef = true ∧ t.fullName? = some y) {n : Nat} :
    ∀ {fs : List Field}, (∀ f ∈ fs, f.schema.noDefs = true) →
    ∀ {errs : List (String × DefaultReason)}, validateRecordFieldDefaults.go res n fs = some errs →
      errs.map Prod.fst = badDefaults res fs := by
  intro fs
  induction fs with
  | nil => intro _ errs h; cases h; rfl
  | cons f fs ih =>
    intro hs errs h
    have ih := @ih fun g hg => hs g (List.mem_cons_of_mem _ hg)
    have no : ¬ BadDefault res f → ∀ {errs}, validateRecordFieldDefaults.go res n fs = some errs →
        errs.map Prod.fst = badDefaults res (f :: fs) := by
      intro hb errs he
      rw [ih he]
      unfold badDefaults
      rw [List.filter_cons_of_neg (by simpa using hb)]
    simp only [validateRecordFieldDefaults.go] at h
    split at h
    · rename_i hd
      exact no (by rintro ⟨v, hv, _⟩; rw [hd] at hv; cases hv) h
    · rename_i v hd
      split at h
      · cases h
      · rename_i hr
        refine no ?_ h
        rintro ⟨_, _, hm, _⟩
        obtain ⟨x, hx, hn⟩ := resolve_unresolved res n f.schema [] hr
        exact hm x hx hn
      · rename_i r hr
        have hv := resolved_valid_iff res n f.schema [] r hr v
        split at h
        · rename_i hval
          refine no ?_ h
          rintro ⟨v', hv', _, hc⟩
          rw [hd] at hv'; injection hv' with hv'; subst hv'
          exact hc (hv.mp ((validateDefault_none_iff r v).mp hval))
        · rename_i reason hval
          obtain ⟨es, he, rfl⟩ := Option.map_eq_some_iff.mp h
          have hb : BadDefault res f := by
            refine ⟨v, hd, fun x hx => ?_, fun hc => ?_⟩
            · rcases resolve_done_defined hres n f.schema [] r hr
                (.inl (hs f (List.mem_cons_self ..))) x (.of_mentions hx) with h | h
              · cases h
              · exact h
            · rw [(validateDefault_none_iff r v).mpr (hv.mpr hc)] at hval; cases hval
          unfold badDefaults
          rw [List.filter_cons_of_pos (by simpa using hb), List.map_cons, List.map_cons, ih he]
          rfl

theorem related_names {span : Option Span} (h : span ≠ none) (spans : List (String × Span))
    (es : List (String × DefaultReason)) :
    (es.filterMap fun x => (errorSpan spans span x.1).map fun sp => (x.1, x.2, sp)).map Prod.fst =
      es.map Prod.fst := by
  obtain ⟨sp, rfl⟩ := Option.ne_none_iff_exists'.mp h
  induction es with
  | nil => rfl
  | cons e es ih =>
    have : ∃ s, errorSpan spans (some sp) e.1 = some s := by
      unfold errorSpan
      cases (spans.reverse.find? fun x => x.1 == e.1).map Prod.snd <;> exact ⟨_, rfl⟩
    obtain ⟨s, hs⟩ := this
    rw [List.filterMap_cons_some (b := (e.1, e.2, s)) (by rw [hs]; rfl), List.map_cons, ih]
    rfl

section
variable [CharTables]

theorem register_error {r : Registry} {s : Schema} (hs : s.flatDef = true) {e : RegErr}
    (h : r.register s = .error e) :
    (∃ n ns, Props.DefinesType s n ns ∧ ¬ (LegalName n ∧ LegalNamespace ns) ∧
      e = .invalidName n ns) ∨
    (∃ x, Props.Acceptable s ∧ s.fullName? = some x ∧ x ∈ r.names ∧ e = .duplicate x) := by
  have key : ∀ (n : String) (ns : Option String), Props.DefinesType s n ns →
      s.fullName? = some (makeFullName n ns) →
      (if (!validateSchemaName n ns) = true then Except.error (RegErr.invalidName n ns)
        else if r.contains (makeFullName n ns) = true then .error (.duplicate (makeFullName n ns))
        else .ok (r ++ [(makeFullName n ns, s)])) = Except.error e →
      (∃ n ns, Props.DefinesType s n ns ∧ ¬ (LegalName n ∧ LegalNamespace ns) ∧
        e = .invalidName n ns) ∨
      (∃ x, Props.Acceptable s ∧ s.fullName? = some x ∧ x ∈ r.names ∧ e = .duplicate x) := by
    intro n ns hd hf h
    have hv := validateSchemaName_iff n ns
    split at h
    · rename_i hx
      injection h with h
      refine .inl ⟨n, ns, hd, fun hl => ?_, h.symm⟩
      rw [hv.mpr hl] at hx; cases hx
    · rename_i hx
      split at h
      · rename_i hc
        injection h with h
        refine .inr ⟨_, ⟨n, ns, hd, hv.mp (by simpa using hx)⟩, hf, ?_, h.symm⟩
        rw [← Registry.find?_isSome_iff]
        simpa [Registry.contains] using hc
      · cases h
  cases s with
  | record n ns => exact key n ns .record rfl h
  | enum n ns => exact key n ns .enum rfl h
  | fixed n ns => exact key n ns .fixed rfl h
  | _ => simp [Schema.flatDef] at hs

/-- An event that fails does so for the right reason. -/
theorem Event.run_fails {w : World} {fuel : Nat} {ev : Event} {k : Core} {before : List Schema}
    (hk : k.registry = Props.registerAll before) (hb : ∀ t ∈ before, t.flatDef = true)
    (he : ∀ t ∈ ev.types, t.flatDef = true) {e : CompileErr} (h : ev.run w fuel k = .error e)
    (hne : e ≠ .timeout) : EventFails before ev e := by
  cases ev with
  | idl p as file ws => cases h
  | schema p j span =>
    simp only [Event.run] at h
    cases hx : importSchema j k.registry with
    | error e' =>
      rw [hx] at h
      injection h with h; subst h
      exact .schema (importSchema_error.mp hx)
    | ok r => rw [hx] at h; cases h
  | protocol p j span =>
    simp only [Event.run] at h
    cases hx : importProtocol j k.registry with
    | error e' =>
      rw [hx] at h
      injection h with h; subst h
      exact .protocol (importProtocol_error.mp hx)
    | ok r => obtain ⟨r, ms⟩ := r; rw [hx] at h; cases h
  | type s span spans =>
    have hs : s.flatDef = true := he s (by simp [Event.types])
    simp only [Event.run] at h
    have hnames : (Props.firstAccepted [] before).map Prod.fst = k.registry.names := by
      rw [hk, Props.C08_registry_is_first_accepted]; rfl
    cases hr : k.registry.register s with
    | error e' =>
      rw [hr] at h
      injection h with h; subst h
      rcases register_error hs hr with ⟨n, ns, h1, h2, rfl⟩ | ⟨x, h1, h2, h3, rfl⟩
      · exact .illegal h1 h2
      · exact .duplicate h1 h2 (by rw [hnames]; exact h3)
    | ok r =>
      obtain ⟨h1, full, hf, hn, hr'⟩ := (Props.register_ok_iff k.registry s r).mp hr
      have hreg : Props.registerAll (before ++ [s]) = r := by
        rw [registerAll_concat, ← hk]; simp [Props.attempt, hr]
      rw [hr] at h
      simp only at h
      have hfl : ∀ t ∈ before ++ [s], t.flatDef = true := by
        intro t ht
        rcases List.mem_append.mp ht with h | h
        · exact hb t h
        · rw [List.mem_singleton.mp h]; exact hs
      have hres := registerAll_res hfl
      rw [hreg] at hres
      cases hv : validateRecordFieldDefaults r.find? fuel s with
      | none => rw [hv] at h; injection h with h; exact absurd h.symm hne
      | some errs =>
        rw [hv] at h
        cases errs with
        | nil => cases h
        | cons x xs =>
          injection h with h; subst h
          cases s with
          | record n ns d fs er al ps =>
            injection hf with hf; subst hf
            simp only [Schema.flatDef, Schema.noDefsF_iff] at hs
            have hnm := checkDefaults_names hres hs hv
            refine .defaults h1 (by rw [hnames]; exact hn) (x := x.1) (xs := xs.map Prod.fst) ?_ rfl
              (fun hsp => related_names hsp spans xs)
            rw [← Props.C08_registry_is_first_accepted, hreg, ← List.map_cons, hnm]
            exact congrArg (badDefaults · fs) (funext fun x => definition_eq _ x)
          | _ => cases hv

/-- The declarations have positions. -/
def ItemsPlaced (items : List DeclItem) : Prop :=
  ∀ s span spans, .type s span spans ∈ items → span ≠ none

omit [CharTables] in
theorem ItemsPlaced.tail {i : DeclItem} {items : List DeclItem} (h : ItemsPlaced (i :: items)) :
    ItemsPlaced items := fun s span spans hm => h s span spans (List.mem_cons_of_mem _ hm)

variable [FloatTables] [CaseTables]

theorem ItemsReported.placed {w : World} {J : List Path} {text name : String}
    {items : List DeclItem} (h : ItemsReported w J text name items) : ItemsPlaced items := by
  intro s span spans hm he
  obtain ⟨sp, hs, _⟩ := (h s span spans hm).1
  rw [he] at hs; cases hs

theorem Spec.Trace.placed {w : World} (hw : w.parse = parseSource) {dirs : List Path} {dir : Path}
    {seen : List Path} {items : List DeclItem} {es : List Event} {e : Ending}
    (h : Trace w dirs dir seen items es e) (hi : ItemsPlaced items) :
    ∀ s span spans, .type s span spans ∈ es → span ≠ none := by
  induction h with
  | nil | cut | notFound | notCanonical | badJson | badIdl => simp
  | type _ ih =>
    intro s span spans hev
    rcases List.mem_cons.mp hev with hev | hev
    · cases hev; exact hi _ _ _ (List.mem_cons_self ..)
    · exact ih hi.tail s span spans hev
  | again _ _ _ ih => exact ih hi.tail
  | schema _ _ _ _ _ ih | protocol _ _ _ _ _ ih =>
    intro s span spans hev
    rcases List.mem_cons.mp hev with hev | hev
    · cases hev
    · exact ih hi.tail s span spans hev
  | idl _ _ _ hr _ _ ih1 ih2 =>
    have hd := (readIdl_places (J := []) hw (text := "") (name := "") hr).1.placed
    intro s span spans hev
    rcases List.mem_cons.mp hev with hev | hev
    · cases hev
    · rcases List.mem_append.mp hev with hev | hev
      · exact ih1 hd s span spans hev
      · exact ih2 hi.tail s span spans hev
  | idlEnds _ _ _ hr _ _ ih1 =>
    have hd := (readIdl_places (J := []) hw (text := "") (name := "") hr).1.placed
    intro s span spans hev
    rcases List.mem_cons.mp hev with hev | hev
    · cases hev
    · exact ih1 hd s span spans hev

/-- Imports do not fail because of default values. -/
theorem Spec.Trace.stuck_not_defaults {w : World} {dirs : List Path} {dir : Path}
    {seen : List Path} {items : List DeclItem} {es : List Event} {e : Ending}
    (h : Trace w dirs dir seen items es e) : ∀ err : CompileErr, ∀ type first span related,
    e = .stuck err → err ≠ .invalidDefaults type first span related := by
  induction h with
  | nil | cut => intro _ _ _ _ _ he; cases he
  | notFound | notCanonical | badJson =>
    intro _ _ _ _ _ he; injection he with he; subst he; simp
  | badIdl _ _ _ hr =>
    intro _ _ _ _ _ he
    injection he with he
    subst he
    unfold readIdl at hr
    split at hr
    · injection hr with hr; subst hr; simp
    · unfold parseIdl at hr
      split at hr
      · injection hr with hr; subst hr; simp
      · split at hr
        · injection hr with hr; subst hr; simp
        · cases hr
  | type _ ih => exact ih
  | again _ _ _ ih => exact ih
  | schema _ _ _ _ _ ih => exact ih
  | protocol _ _ _ _ _ ih => exact ih
  | idl _ _ _ _ _ _ _ ih => exact ih
  | idlEnds _ _ _ _ _ _ ih => exact ih

theorem Spec.Trace.stuck_not_json {w : World} {dirs : List Path} {dir : Path}
    {seen : List Path} {items : List DeclItem} {es : List Event} {e : Ending}
    (h : Trace w dirs dir seen items es e) : ∀ err : CompileErr, ∀ span p e',
    e = .stuck err → err ≠ .importFailed span (.importJson p e') := by
  induction h with
  | nil | cut => intro _ _ _ _ he; cases he
  | notFound | notCanonical =>
    intro _ _ _ _ he; injection he with he; subst he; simp
  | badJson _ _ _ hr =>
    intro _ _ _ _ he; injection he with he; subst he
    unfold readJson at hr
    repeat' (split at hr)
    all_goals cases hr
    all_goals simp
  | badIdl _ _ _ hr =>
    intro _ _ _ _ he
    injection he with he
    subst he
    unfold readIdl at hr
    split at hr
    · injection hr with hr; subst hr; simp
    · unfold parseIdl at hr
      split at hr
      · injection hr with hr; subst hr; simp
      · split at hr
        · injection hr with hr; subst hr; simp
        · cases hr
  | type _ ih => exact ih
  | again _ _ _ ih => exact ih
  | schema _ _ _ _ _ ih => exact ih
  | protocol _ _ _ _ _ ih => exact ih
  | idl _ _ _ _ _ _ _ ih => exact ih
  | idlEnds _ _ _ _ _ _ ih => exact ih

/-- The documents of a trace are what the files contain. -/
theorem Spec.Trace.json_read {w : World} {dirs : List Path} {dir : Path}
    {seen : List Path} {items : List DeclItem} {es : List Event} {e : Ending}
    (h : Trace w dirs dir seen items es e) : ∀ p j span,
    Event.schema p j span ∈ es ∨ Event.protocol p j span ∈ es → readJson w p = .ok j := by
  induction h with
  | nil | cut | notFound | notCanonical | badJson | badIdl => simp
  | type _ ih => simpa using ih
  | again _ _ _ ih => exact ih
  | schema _ _ _ hr _ ih | protocol _ _ _ hr _ ih =>
    intro p' j' span' hm
    simp only [List.mem_cons, Event.schema.injEq, Event.protocol.injEq, reduceCtorEq,
      false_or] at hm
    rcases hm with hm | hm
    · first
        | (rcases hm with ⟨rfl, rfl, _⟩ | hm
           · exact hr
           · exact ih _ _ _ (.inl hm))
        | exact ih _ _ _ (.inl hm)
    · first
        | (rcases hm with ⟨rfl, rfl, _⟩ | hm
           · exact hr
           · exact ih _ _ _ (.inr hm))
        | exact ih _ _ _ (.inr hm)
  | idl _ _ _ _ _ _ ih1 ih2 =>
    intro p' j' span' hm
    simp only [List.mem_cons, List.mem_append, reduceCtorEq, false_or] at hm
    rcases hm with (hm | hm) | (hm | hm)
    · exact ih1 _ _ _ (.inl hm)
    · exact ih2 _ _ _ (.inl hm)
    · exact ih1 _ _ _ (.inr hm)
    · exact ih2 _ _ _ (.inr hm)
  | idlEnds _ _ _ _ _ _ ih => simpa using ih

end

end Avdl
