import Verif.Lemmas.Importable
import Verif.Lemmas.EndToEnd
import Verif.Props.Defaults
import Verif.Props.CompileApi
/-! Lemmas on which compilations succeed. -/

namespace Avdl
open Spec

/-! ## Resolution succeeds exactly when everything mentioned is defined -/

/-- `Mentions` along definitions of names outside `V`. -/
inductive MentionsOutside (res : String → Option Schema) (V : List String) : Schema → String → Prop
  | here {s x sp} : RefersTo s x sp → MentionsOutside res V s x
  | step {s y sp t x} : RefersTo s y sp → y ∉ V → res y = some t → MentionsOutside res V t x →
      MentionsOutside res V s x

theorem MentionsOutside.of_mentions {res : String → Option Schema} {s : Schema} {x : String}
    (h : Mentions res s x) : MentionsOutside res [] s x := by
  induction h with
  | here h => exact .here h
  | step h h1 _ ih => exact .step h (by simp) h1 ih

theorem MentionsOutside.cut {res : String → Option Schema} {V : List String} {s t : Schema}
    {x y : String} (hy : res y = some t) (h : MentionsOutside res V s x) :
    MentionsOutside res (y :: V) s x ∨ MentionsOutside res (y :: V) t x := by
  induction h with
  | here h => exact .inl (.here h)
  | @step s z sp u x h hz hu _ ih =>
    rcases ih with ih | ih
    · by_cases hyz : z = y
      · subst hyz; rw [hy] at hu; injection hu with hu; subst hu; exact .inr ih
      · exact .inl (.step h (by simp [hyz, hz]) hu ih)
    · exact .inr ih

/-- Paths start with a reference in the schema. -/
theorem MentionsOutside.start {res : String → Option Schema} {V : List String} {s : Schema}
    {x : String} (h : MentionsOutside res V s x) :
    ∃ y sp, RefersTo s y sp ∧ ∀ s' sp', RefersTo s' y sp' → MentionsOutside res V s' x := by
  cases h with
  | here h => exact ⟨_, _, h, fun s' sp' h' => .here h'⟩
  | step h hy ht hx => exact ⟨_, _, h, fun s' sp' h' => .step h' hy ht hx⟩

theorem MentionsOutside.record {res : String → Option Schema} {V : List String} {n : String}
    {ns d : Option String} {fs : List Field} {e : Bool} {al : List String} {ps : Props} {x : String}
    (h : MentionsOutside res V (.record n ns d fs e al ps) x) :
    ∃ f ∈ fs, MentionsOutside res V f.schema x := by
  obtain ⟨y, sp, h1, h2⟩ := h.start
  cases h1 with
  | field hf h1 => exact ⟨_, hf, h2 _ _ h1⟩

theorem resolve_done_defined {res : String → Option Schema}
    (hres : ∀ y t, res y = some t → t.flatDef = true ∧ t.fullName? = some y) (n : Nat) :
    ∀ (s : Schema) (V : List String) (r : Schema), resolveInner res n s V = .done r →
      (s.noDefs = true ∨ ∃ y, res y = some s) →
      ∀ x, MentionsOutside res V s x → x ∈ V ∨ res x ≠ none := by
  induction n with
  | zero => intro s V r h; simp [resolveInner] at h
  | succ n ih =>
    intro s V r h hs x hx
    cases s with
    | prim | annotated | logical | enum | fixed =>
      obtain ⟨y, sp, h1, _⟩ := hx.start
      cases h1
    | array i ps =>
      simp only [resolveInner] at h
      have hi : i.noDefs = true := by
        rcases hs with hs | ⟨y, hs⟩
        · simpa [Schema.noDefs] using hs
        · have := (hres y _ hs).1; simp [Schema.flatDef] at this
      obtain ⟨y, sp, h1, h2⟩ := hx.start
      cases h1 with
      | items h1 =>
        cases hr : resolveInner res n i V with
        | timeout => rw [hr] at h; cases h
        | unresolved => rw [hr] at h; cases h
        | done r' => exact ih i V r' hr (.inl hi) x (h2 _ _ h1)
    | map i ps =>
      simp only [resolveInner] at h
      have hi : i.noDefs = true := by
        rcases hs with hs | ⟨y, hs⟩
        · simpa [Schema.noDefs] using hs
        · have := (hres y _ hs).1; simp [Schema.flatDef] at this
      obtain ⟨y, sp, h1, h2⟩ := hx.start
      cases h1 with
      | values h1 =>
        cases hr : resolveInner res n i V with
        | timeout => rw [hr] at h; cases h
        | unresolved => rw [hr] at h; cases h
        | done r' => exact ih i V r' hr (.inl hi) x (h2 _ _ h1)
    | union ts b =>
      simp only [resolveInner] at h
      have hi : ∀ t ∈ ts, t.noDefs = true := by
        rcases hs with hs | ⟨y, hs⟩
        · simpa [Schema.noDefs, Schema.noDefsL_iff] using hs
        · have := (hres y _ hs).1; simp [Schema.flatDef] at this
      obtain ⟨y, sp, h1, h2⟩ := hx.start
      cases h1 with
      | branch ht h1 =>
        cases hr : resolveLoop (fun t => resolveInner res n t V) ts with
        | timeout => rw [hr] at h; cases h
        | unresolved => rw [hr] at h; cases h
        | done rs =>
          obtain ⟨r', _, hr'⟩ := (resolveLoop_done hr).2 _ ht
          exact ih _ V r' hr' (.inl (hi _ ht)) x (h2 _ _ h1)
    | record nm ns d fs e al ps =>
      simp only [resolveInner] at h
      rcases hs with hs | ⟨y, hs⟩
      · simp [Schema.noDefs] at hs
      obtain ⟨hfl, hfull⟩ := hres y _ hs
      simp only [Schema.fullName?, Option.some.injEq] at hfull
      rw [hfull] at h
      simp only [Schema.flatDef, Schema.noDefsF_iff] at hfl
      have hx' : MentionsOutside res (y :: V) (.record nm ns d fs e al ps) x := by
        rcases hx.cut hs with h | h <;> exact h
      obtain ⟨f, hf, hxf⟩ := hx'.record
      cases hr : resolveLoop (fun f => resolveField f (resolveInner res n f.schema (y :: V))) fs with
      | timeout => rw [hr] at h; cases h
      | unresolved => rw [hr] at h; cases h
      | done rs =>
        obtain ⟨f', _, hf'⟩ := (resolveLoop_done hr).2 _ hf
        cases hfr : resolveInner res n f.schema (y :: V) with
        | timeout => rw [hfr] at hf'; simp [resolveField] at hf'
        | unresolved => rw [hfr] at hf'; simp [resolveField] at hf'
        | done r' =>
          rcases ih f.schema (y :: V) r' hfr (.inl (hfl f hf)) x hxf with h | h
          · rcases List.mem_cons.mp h with h | h
            · subst h; exact .inr (by rw [hs]; simp)
            · exact .inl h
          · exact .inr h
    | ref nm ns ps sp =>
      simp only [resolveInner] at h
      split at h
      · rename_i hV
        simp only [List.contains_iff_mem] at hV
        cases hx with
        | here h1 => cases h1; exact .inl hV
        | step h1 hy ht hx => cases h1; exact absurd hV hy
      · rename_i hV
        cases hr : res (makeFullName nm ns) with
        | none => rw [hr] at h; cases h
        | some t =>
          rw [hr] at h
          cases hx with
          | here h1 => cases h1; exact .inr (by rw [hr]; simp)
          | step h1 hy ht hx =>
            cases h1
            rw [hr] at ht; injection ht with ht; subst ht
            exact ih t V r h (.inr ⟨_, hr⟩) x hx

/-! ## Default values -/

theorem definition_eq (r : Registry) (x : String) : definition r x = r.find? x := by
  unfold definition
  induction r with
  | nil => rfl
  | cons kt r ih =>
    obtain ⟨k, t⟩ := kt
    simp only [List.find?_cons, Registry.find?]
    by_cases h : k = x
    · simp [h]
    · have : (k == x) = false := by simpa using h
      simp only [this, if_neg h]
      exact ih

/-- The check finds nothing exactly if the default values are acceptable. -/
theorem checkDefaults_nil {res : String → Option Schema}
    (hres : ∀ y t, res y = some t → t.flatDef = true ∧ t.fullName? = some y) {n : Nat} {s : Schema}
    (hs : s.flatDef = true) {errs : List (String × DefaultReason)}
    (h : validateRecordFieldDefaults res n s = some errs) : errs = [] ↔ DefaultsOk res s := by
  cases s with
  | record nm ns d fs e al ps =>
    simp only [Schema.flatDef, Schema.noDefsF_iff] at hs
    constructor
    · rintro rfl n' ns' d' fs' e' al' ps' hx f hf v hv hm
      cases hx
      exact Props.C13_accepted_conforms res n nm ns d fs e al ps h f hf v hv hm
    · intro hok
      have h1 := (Props.go_some h).1
      cases errs with
      | nil => rfl
      | cons x errs =>
        obtain ⟨f, hf, _, v, r, hv, hr, hval⟩ := h1 x (by simp)
        have hc := hok nm ns d fs e al ps rfl f hf v hv fun y hy => by
          rcases resolve_done_defined hres n f.schema [] r hr (.inl (hs f hf)) y
            (.of_mentions hy) with h | h
          · cases h
          · exact h
        have := (resolved_valid_iff res n f.schema [] r hr v).mpr hc
        rw [(validateDefault_none_iff r v).mpr this] at hval
        cases hval
  | prim | annotated | logical | array | map | union | ref => simp [Schema.flatDef] at hs
  | enum | fixed =>
    simp only [validateRecordFieldDefaults, Option.some.injEq] at h
    subst h
    refine ⟨fun _ n' ns' d' fs' e' al' ps' hx => (by cases hx), fun _ => rfl⟩

section
variable [CharTables]

theorem registerAll_concat (before : List Schema) (s : Schema) :
    Props.registerAll (before ++ [s]) = Props.attempt (Props.registerAll before) s := by
  simp [Props.registerAll, List.foldl_append]

theorem registerAll_res {l : List Schema} (hl : ∀ t ∈ l, t.flatDef = true) :
    ∀ y t, (Props.registerAll l).find? y = some t → t.flatDef = true ∧ t.fullName? = some y := by
  intro y t h
  have hm := Registry.mem_of_find? h
  exact ⟨hl t (mem_registerAll hm), (Props.C08_registry_ok l _ hm).2⟩

/-- An event goes through exactly if it is acceptable (unless the fuel runs out). -/
theorem Event.run_iff {w : World} {fuel : Nat} {ev : Event} {k : Core} {before : List Schema}
    (hk : k.registry = Props.registerAll before) (hb : ∀ t ∈ before, t.flatDef = true)
    (he : ∀ t ∈ ev.types, t.flatDef = true) (ht : ev.run w fuel k ≠ .error .timeout) :
    (∃ k', ev.run w fuel k = .ok k') ↔ EventOk before ev := by
  cases ev with
  | idl p as file ws => simp [Event.run, EventOk]
  | schema p j span =>
    simp only [EventOk]
    rw [← importSchema_isOk (r := k.registry)]
    simp only [Event.run]
    cases importSchema j k.registry <;> simp
  | protocol p j span =>
    simp only [EventOk]
    rw [← importProtocol_isOk (r := k.registry)]
    simp only [Event.run]
    cases importProtocol j k.registry with
    | error e => simp
    | ok x => obtain ⟨r, ms⟩ := x; simp
  | type s span spans =>
    have hs : s.flatDef = true := he s (by simp [Event.types])
    simp only [Event.run] at ht ⊢
    simp only [EventOk]
    rw [← Props.C08_registry_is_first_accepted, ← Props.C08_registry_is_first_accepted]
    have hfl : ∀ t ∈ before ++ [s], t.flatDef = true := by
      intro t ht
      rcases List.mem_append.mp ht with h | h
      · exact hb t h
      · rw [List.mem_singleton.mp h]; exact hs
    have hres := registerAll_res hfl
    have hdef : definition (Props.registerAll (before ++ [s])) =
        (Props.registerAll (before ++ [s])).find? := funext fun x => definition_eq _ x
    rw [hdef]
    cases hr : k.registry.register s with
    | error e =>
      simp only [reduceCtorEq, exists_false, false_iff]
      rintro ⟨h1, h2, _⟩
      obtain ⟨full, hf⟩ : ∃ full, s.fullName? = some full := by
        obtain ⟨n, ns, h, _⟩ := h1
        cases h <;> exact ⟨_, rfl⟩
      have := (Props.register_ok_iff k.registry s _).mpr
        ⟨h1, full, hf, by rw [hk]; exact h2 full hf, rfl⟩
      rw [hr] at this; cases this
    | ok r =>
      obtain ⟨h1, full, hf, hn, hr'⟩ := (Props.register_ok_iff k.registry s r).mp hr
      have hreg : Props.registerAll (before ++ [s]) = r := by
        rw [registerAll_concat, ← hk]; simp [Props.attempt, hr]
      rw [hreg] at hres ⊢
      rw [hr] at ht
      simp only at ht ⊢
      cases hv : validateRecordFieldDefaults r.find? fuel s with
      | none => rw [hv] at ht; exact absurd rfl ht
      | some errs =>
        have key := checkDefaults_nil hres hs hv
        have hnew : ∀ x, s.fullName? = some x → x ∉ (Props.registerAll before).map Prod.fst := by
          intro x hx
          rw [hf] at hx; injection hx with hx; subst hx
          rw [hk] at hn; exact hn
        cases errs with
        | nil => exact ⟨fun _ => ⟨h1, hnew, key.mp rfl⟩, fun _ => ⟨_, rfl⟩⟩
        | cons e es =>
          simp only [reduceCtorEq, exists_false, false_iff]
          rintro ⟨_, _, h⟩
          exact absurd (key.mpr h) (by simp)

/-- All events go through exactly if they are acceptable. -/
theorem runEvents_iff {w : World} {fuel : Nat} {es : List Event} : ∀ {k : Core} {done : List Event},
    k.registry = Props.registerAll (done.flatMap Event.types) →
    (∀ ev ∈ done ++ es, ∀ t ∈ ev.types, t.flatDef = true) →
    runEvents w fuel es k ≠ .error .timeout →
    ((∃ k', runEvents w fuel es k = .ok k') ↔
      ∀ l ev l', es = l ++ ev :: l' → EventOk ((done ++ l).flatMap Event.types) ev) := by
  induction es with
  | nil => intro k done _ _ _; simp [runEvents]
  | cons ev es ih =>
    intro k done hk hfl ht
    simp only [runEvents] at ht ⊢
    have hb : ∀ t ∈ done.flatMap Event.types, t.flatDef = true := by
      intro t ht
      obtain ⟨ev', he', ht⟩ := List.mem_flatMap.mp ht
      exact hfl ev' (by simp [he']) t ht
    have hrun := Event.run_iff (w := w) (fuel := fuel) hk hb (hfl ev (by simp))
    cases h1 : ev.run w fuel k with
    | error e =>
      rw [h1] at ht hrun
      simp only at ht ⊢
      have := hrun (by simpa using ht)
      simp only [reduceCtorEq, exists_false, false_iff] at this ⊢
      intro hall
      exact this (by simpa using hall [] ev es rfl)
    | ok k1 =>
      rw [h1] at ht hrun
      simp only at ht ⊢
      have hok : EventOk (done.flatMap Event.types) ev := (hrun (by simp)).mp ⟨_, rfl⟩
      have hk1 : k1.registry = Props.registerAll ((done ++ [ev]).flatMap Event.types) := by
        have := (runEvents_effect (runEvents_cons_ok (es := []) h1 rfl)).1
        simpa [Props.registerAll, List.flatMap_append, List.foldl_append, hk] using this
      rw [ih (done := done ++ [ev]) hk1 (by simpa using hfl) ht]
      constructor
      · intro h l ev' l' hl
        cases l with
        | nil =>
          simp only [List.nil_append, List.cons.injEq] at hl
          obtain ⟨rfl, _⟩ := hl
          simpa using hok
        | cons a l =>
          simp only [List.cons_append, List.cons.injEq] at hl
          obtain ⟨rfl, hl⟩ := hl
          simpa using h l ev' l' hl
      · intro h l ev' l' hl
        simpa using h (ev :: l) ev' l' (by simp [hl])

end

end Avdl
