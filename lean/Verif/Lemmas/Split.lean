import Verif.Lemmas.Local
import Verif.Lemmas.BareCompile
import Verif.Lemmas.CompileOk
import Verif.Lemmas.CompileFacts
import Verif.Spec.Split
/-!
# Lemmas for C66
-/

namespace Avdl
open Spec BareOutput BareReader BareCompile

/-! ### Declarations and events up to positions -/

theorem Spec.SameDecl.symm {d d' : DeclItem} (h : SameDecl d d') : SameDecl d' d := by
  cases h with
  | type h => exact .type h.symm
  | import_ h1 h2 => exact .import_ h1.symm h2.symm

theorem Spec.SameDecls.symm {l l' : List DeclItem} (h : SameDecls l l') : SameDecls l' l := by
  induction h with
  | nil => exact .nil
  | cons h _ ih => exact .cons h.symm ih

theorem Spec.SameDecls.mem_import {l l' : List DeclItem} (h : SameDecls l l') {i : ImportEntry}
    (hi : .import_ i ∈ l) : ∃ i', .import_ i' ∈ l' ∧ i.kind = i'.kind ∧ i.path = i'.path := by
  induction h with
  | nil => cases hi
  | cons h _ ih =>
    rcases List.mem_cons.mp hi with rfl | hi
    · cases h with | import_ h1 h2 => exact ⟨_, List.mem_cons_self, h1, h2⟩
    · obtain ⟨i', h1, h2⟩ := ih hi
      exact ⟨i', List.mem_cons_of_mem _ h1, h2⟩

theorem sameDecls_refl (l : List DeclItem) : SameDecls l l := by
  induction l with
  | nil => exact .nil
  | cons d l ih =>
    refine .cons ?_ ih
    cases d with
    | type s _ _ => exact .type rfl
    | import_ i => exact .import_ rfl rfl

/-- The same event, up to source positions. -/
inductive SameEvent : Event → Event → Prop
  | type {s s' span span' spans spans'} : s.bare = s'.bare →
      SameEvent (.type s span spans) (.type s' span' spans')
  | schema {p j sp sp'} : SameEvent (.schema p j sp) (.schema p j sp')
  | protocol {p j sp sp'} : SameEvent (.protocol p j sp) (.protocol p j sp')
  | idl {p a f ws} : SameEvent (.idl p a f ws) (.idl p a f ws)

theorem SameEvent.symm {e e' : Event} (h : SameEvent e e') : SameEvent e' e := by
  cases h with
  | type h => exact .type h.symm
  | schema => exact .schema
  | protocol => exact .protocol
  | idl => exact .idl

theorem SameEvent.messages {e e' : Event} (h : SameEvent e e') : e.messages = e'.messages := by
  cases h <;> rfl

theorem sameEvents_messages {es es' : List Event} (h : List.Forall₂ SameEvent es es') :
    es.flatMap Event.messages = es'.flatMap Event.messages := by
  induction h with
  | nil => rfl
  | cons h _ ih => simp [h.messages, ih]

/-- The same events, up to source positions, but for imports of IDL files on the left. -/
inductive SameButImports : List Event → List Event → Prop
  | nil : SameButImports [] []
  | cons {e e' es es'} : SameEvent e e' → SameButImports es es' →
      SameButImports (e :: es) (e' :: es')
  | skip {p a f ws es es'} : SameButImports es es' → SameButImports (.idl p a f ws :: es) es'

theorem SameButImports.of_same {es es' : List Event} (h : List.Forall₂ SameEvent es es') :
    SameButImports es es' := by
  induction h with
  | nil => exact .nil
  | cons h _ ih => exact .cons h ih

theorem SameButImports.append {a a' b b' : List Event} (h : SameButImports a a')
    (h' : SameButImports b b') : SameButImports (a ++ b) (a' ++ b') := by
  induction h with
  | nil => exact h'
  | cons h _ ih => exact .cons h ih
  | skip _ ih => exact .skip ih

theorem SameEvent.trans {a b c : Event} (h : SameEvent a b) (h' : SameEvent b c) :
    SameEvent a c := by
  cases h with
  | type h => cases h' with | type h' => exact .type (h.trans h')
  | schema => cases h'; exact .schema
  | protocol => cases h'; exact .protocol
  | idl => cases h'; exact .idl

theorem sameEvents_symm {a b : List Event} (h : List.Forall₂ SameEvent a b) :
    List.Forall₂ SameEvent b a := by
  induction h with
  | nil => exact .nil
  | cons h _ ih => exact .cons h.symm ih

theorem sameEvents_refl : ∀ a : List Event, List.Forall₂ SameEvent a a
  | [] => .nil
  | e :: a => .cons (by
      cases e with
      | type => exact .type rfl
      | schema => exact .schema
      | protocol => exact .protocol
      | idl => exact .idl) (sameEvents_refl a)

theorem SameButImports.trans {a b c : List Event} (h : SameButImports a b)
    (h' : List.Forall₂ SameEvent b c) : SameButImports a c := by
  induction h generalizing c with
  | nil => cases h'; exact .nil
  | cons h _ ih => cases h' with | cons h1 h2 => exact .cons (h.trans h1) (ih h2)
  | skip _ ih => exact .skip (ih h')

section
variable [CharTables]

theorem Event.run_same {w : World} {fuel : Nat} {e e' : Event} (h : SameEvent e e') {k k' l : Core}
    (hk : bareTable k.registry = bareTable k'.registry) (hr : e.run w fuel k = .ok l) :
    ∃ l', e'.run w fuel k' = .ok l' ∧ bareTable l.registry = bareTable l'.registry := by
  cases h with
  | @type s s' span span' spans spans' hs =>
    simp only [Event.run] at hr ⊢
    have h := register_same hk hs
    cases h1 : k.registry.register s with
    | error e => simp [h1] at hr
    | ok q =>
      cases h2 : k'.registry.register s' with
      | error e' => rw [h1, h2] at h; cases h
      | ok q' =>
        rw [h1, h2] at h
        injection h with h
        have hv : validateRecordFieldDefaults q.find? fuel s =
            validateRecordFieldDefaults q'.find? fuel s' := by
          rw [← fieldDefaults_bare (find_bare q), hs, h, fieldDefaults_bare (find_bare q')]
        simp only [h1, hv] at hr
        dsimp only
        cases hd : validateRecordFieldDefaults q'.find? fuel s' with
        | none => simp [hd] at hr
        | some es =>
          cases es with
          | nil =>
            simp only [hd, Except.ok.injEq] at hr
            subst hr
            exact ⟨_, rfl, h⟩
          | cons a as => simp [hd] at hr
  | @schema p j sp sp' =>
    simp only [Event.run] at hr ⊢
    have h := importSchema_same j hk
    cases h1 : importSchema j k.registry with
    | error e => simp [h1] at hr
    | ok q =>
      cases h2 : importSchema j k'.registry with
      | error e' => rw [h1, h2] at h; cases h
      | ok q' =>
        rw [h1, h2] at h
        injection h with h
        simp only [h1, Except.ok.injEq] at hr
        subst hr
        exact ⟨_, rfl, h⟩
  | @protocol p j sp sp' =>
    simp only [Event.run] at hr ⊢
    have h := importProtocol_same j hk
    cases h1 : importProtocol j k.registry with
    | error e => simp [h1] at hr
    | ok q =>
      cases h2 : importProtocol j k'.registry with
      | error e' => rw [h1, h2] at h; cases h
      | ok q' =>
        rw [h1, h2] at h
        injection h with h
        obtain ⟨q1, q2⟩ := q
        obtain ⟨q1', q2'⟩ := q'
        simp only [h1, Except.ok.injEq] at hr
        subst hr
        exact ⟨_, rfl, (Prod.mk.inj h).1⟩
  | idl =>
    simp only [Event.run, Except.ok.injEq] at hr ⊢
    subst hr
    exact ⟨_, rfl, hk⟩

theorem runEvents_same {w : World} {fuel : Nat} {es es' : List Event} (h : SameButImports es es') :
    ∀ {k k' l : Core}, bareTable k.registry = bareTable k'.registry →
      runEvents w fuel es k = .ok l →
      ∃ l', runEvents w fuel es' k' = .ok l' ∧ bareTable l.registry = bareTable l'.registry := by
  induction h with
  | nil =>
    intro k k' l hk hr
    simp only [runEvents, Except.ok.injEq] at hr ⊢
    subst hr
    exact ⟨_, rfl, hk⟩
  | @cons e e' es es' he _ ih =>
    intro k k' l hk hr
    simp only [runEvents] at hr ⊢
    cases h1 : e.run w fuel k with
    | error x => simp [h1] at hr
    | ok k1 =>
      obtain ⟨k1', h2, h3⟩ := Event.run_same he hk h1
      simp only [h1] at hr
      rw [h2]
      exact ih h3 hr
  | skip _ ih =>
    intro k k' l hk hr
    simp only [runEvents, Event.run] at hr
    exact ih (by exact hk) hr

theorem runEvents_same_back {w : World} {fuel : Nat} {es es' : List Event}
    (h : SameButImports es es') : ∀ {k k' l' : Core}, bareTable k.registry = bareTable k'.registry →
      runEvents w fuel es' k' = .ok l' →
      ∃ l, runEvents w fuel es k = .ok l ∧ bareTable l.registry = bareTable l'.registry := by
  induction h with
  | nil =>
    intro k k' l hk hr
    simp only [runEvents, Except.ok.injEq] at hr ⊢
    subst hr
    exact ⟨_, rfl, hk⟩
  | @cons e e' es es' he _ ih =>
    intro k k' l hk hr
    simp only [runEvents] at hr ⊢
    cases h1 : e'.run w fuel k' with
    | error x => simp [h1] at hr
    | ok k1 =>
      obtain ⟨k1', h2, h3⟩ := Event.run_same he.symm hk.symm h1
      simp only [h1] at hr
      rw [h2]
      exact ih h3.symm hr
  | skip _ ih =>
    intro k k' l hk hr
    simp only [runEvents, Event.run]
    exact ih (by exact hk) hr

end

/-! ### References -/

theorem refersTo_to_bare {s : Schema} {x : String} {sp : Option Span} (h : RefersTo s x sp) :
    RefersTo s.bare x none := by
  induction h with
  | ref => rw [Schema.bare]; exact .ref
  | @field n ns d fs e al ps f x sp hf _ ih =>
    rw [Schema.bare, bareFields_map]
    exact .field (List.mem_map_of_mem hf) (by rw [fieldSchema_bare]; exact ih)
  | items _ ih => rw [Schema.bare]; exact .items ih
  | values _ ih => rw [Schema.bare]; exact .values ih
  | branch ht _ ih =>
    rw [Schema.bare, bareSchemas_map]
    exact .branch (List.mem_map_of_mem ht) ih

theorem refersTo_same {s s' : Schema} (h : s.bare = s'.bare) {x : String} {sp : Option Span}
    (hr : RefersTo s x sp) : ∃ sp', RefersTo s' x sp' :=
  refersTo_bare s' (h ▸ refersTo_to_bare hr)

theorem messageMentions_same {m m' : Message} (h : m.bare = m'.bare) {x : String}
    (hm : MessageMentions m x) : MessageMentions m' x := by
  have h1 : m.request.map Field.bare = m'.request.map Field.bare :=
    by have := congrArg Message.request h; exact this
  have h2 : m.response.bare = m'.response.bare := by have := congrArg Message.response h; exact this
  have h3 : m.errors.map (List.map Schema.bare) = m'.errors.map (List.map Schema.bare) :=
    by have := congrArg Message.errors h; exact this
  cases hm with
  | response hr =>
    obtain ⟨_, hr⟩ := refersTo_same h2 hr
    exact .response hr
  | @parameter f sp hf hr =>
    have : f.bare ∈ m'.request.map Field.bare := h1 ▸ List.mem_map_of_mem hf
    obtain ⟨f', hf', he⟩ := List.mem_map.mp this
    obtain ⟨_, hr⟩ := refersTo_same (s' := f'.schema)
      (by rw [← fieldSchema_bare, ← fieldSchema_bare, he]) hr
    exact .parameter hf' hr
  | @error es s sp he hs hr =>
    rw [he] at h3
    cases he' : m'.errors with
    | none => rw [he'] at h3; cases h3
    | some es' =>
      rw [he'] at h3
      injection h3 with h3
      have : s.bare ∈ es'.map Schema.bare := h3 ▸ List.mem_map_of_mem hs
      obtain ⟨s', hs', hb⟩ := List.mem_map.mp this
      obtain ⟨_, hr⟩ := refersTo_same hb.symm hr
      exact .error he' hs' hr

theorem mem_of_bareTable {r r' : List (String × Schema)} (h : bareTable r = bareTable r')
    {kt : String × Schema} (hk : kt ∈ r) : ∃ kt' ∈ r', kt.1 = kt'.1 ∧ kt.2.bare = kt'.2.bare := by
  have : (kt.1, kt.2.bare) ∈ bareTable r' := h ▸ List.mem_map_of_mem hk
  obtain ⟨kt', h1, h2⟩ := List.mem_map.mp this
  injection h2 with h2 h3
  exact ⟨kt', h1, h2.symm, h3.symm⟩

theorem names_of_bareTable {r r' : List (String × Schema)} (h : bareTable r = bareTable r') :
    r.map Prod.fst = r'.map Prod.fst := by
  have := congrArg (List.map Prod.fst) h
  simpa [bareTable, Function.comp_def] using this

/-! ### Traces -/

section
variable [CharTables] [FloatTables] [CaseTables]
variable {w : World} {dirs : List Path}

theorem Spec.NeverImports.mono {p dir : Path} {items items' : List DeclItem}
    (h : NeverImports w dirs p dir items)
    (hs : ∀ i, .import_ i ∈ items' → ∃ i', .import_ i' ∈ items ∧ i.kind = i'.kind ∧ i.path = i'.path) :
    NeverImports w dirs p dir items' := by
  intro name text ps u i hc hi hto
  cases hc with
  | here =>
    obtain ⟨i', h1, _, h2⟩ := hs i hi
    exact h name text [] ⟨name, text, dir, items⟩ i' .here h1 (h2 ▸ hto)
  | into hh hf hc =>
    obtain ⟨j, h1, h2, h3⟩ := hh
    obtain ⟨j', h4, h5, h6⟩ := hs j h1
    exact h name text _ u i (.into ⟨j', h4, h5 ▸ h2, h6 ▸ h3⟩ hf hc) hi hto

theorem Spec.NeverImports.sub {p dir : Path} {items items' : List DeclItem}
    (h : NeverImports w dirs p dir items) (hs : items' ⊆ items) : NeverImports w dirs p dir items' :=
  h.mono fun i hi => ⟨i, hs hi, rfl, rfl⟩

theorem Spec.NeverImports.here {p dir : Path} {items : List DeclItem} {i : ImportEntry} {q : Path}
    (h : NeverImports w dirs p dir items) (hi : .import_ i ∈ items)
    (hto : ImportsTo w dirs dir i.path q) : q ≠ p := by
  rintro rfl
  exact h "" "" [] ⟨"", "", dir, items⟩ i .here hi hto

theorem Spec.NeverImports.inside {p dir : Path} {items : List DeclItem} {i : ImportEntry} {q : Path}
    {file : IdlFile} {decls : List DeclItem} {ws : List Warning}
    (h : NeverImports w dirs p dir items) (hi : .import_ i ∈ items) (hk : i.kind = .idl)
    (hto : ImportsTo w dirs dir i.path q) (hr : readIdl w q = .ok (file, decls, ws)) :
    NeverImports w dirs p ((w.parent q).getD ".") decls := by
  intro name text ps u j hc hj hto'
  unfold readIdl at hr
  cases ht : w.read q with
  | none => simp [ht] at hr
  | some t =>
    simp only [ht] at hr
    cases hc with
    | here =>
      exact h "" "" [q] ⟨q, t, (w.parent q).getD ".", decls⟩ j
        (.into ⟨i, hi, hk, hto⟩ ⟨rfl, ht, rfl, _, _, hr⟩ .here) hj hto'
    | into hh hf hc =>
      exact h "" "" _ u j
        (.into ⟨i, hi, hk, hto⟩ ⟨rfl, ht, rfl, _, _, hr⟩
          (.into (s := ⟨q, t, (w.parent q).getD ".", decls⟩) hh hf hc)) hj hto'

/-- The files met agree away from `p`. -/
def SameAway (p : Path) (S T : List Path) : Prop := ∀ x, x ≠ p → (x ∈ T ↔ x ∈ S)

omit [CharTables] [FloatTables] [CaseTables] in
theorem SameAway.cons {p q : Path} {S T : List Path} (h : SameAway p S T) :
    SameAway p (q :: S) (q :: T) := by
  intro x hx
  simp [h x hx]

theorem Spec.Trace.transfer {p dir : Path} {S S' : List Path} {items : List DeclItem}
    {es : List Event} (h : Trace w dirs dir S items es (.finished S')) :
    ∀ {items' : List DeclItem} {T : List Path}, SameDecls items items' → SameAway p S T →
      NeverImports w dirs p dir items →
      ∃ es' T', Trace w dirs dir T items' es' (.finished T') ∧ List.Forall₂ SameEvent es es' ∧
        SameAway p S' T' ∧ (p ∈ S' → p ∈ S) ∧ (p ∈ T' → p ∈ T) := by
  generalize he : Ending.finished S' = e at h
  induction h generalizing S' with
  | nil =>
    intro items' T hd hS _
    cases hd
    injection he with he
    subst he
    exact ⟨[], T, .nil, .nil, hS, id, id⟩
  | cut => cases he
  | notFound => cases he
  | notCanonical => cases he
  | badJson => cases he
  | badIdl => cases he
  | idlEnds _ _ _ _ _ hne => exact absurd he.symm (hne _)
  | type _ ih =>
    intro items' T hd hS hN
    cases hd with
    | cons hx hd =>
      cases hx with
      | type hb =>
        obtain ⟨es', T', h1, h2, h3⟩ := ih he hd hS (hN.sub (List.subset_cons_self _ _))
        exact ⟨_, T', .type h1, .cons (.type hb) h2, h3⟩
  | again hto hp _ ih =>
    intro items' T hd hS hN
    have hne := hN.here List.mem_cons_self hto
    cases hd with
    | cons hx hd =>
      cases hx with
      | import_ hk hpath =>
        obtain ⟨es', T', h1, h2, h3⟩ := ih he hd hS (hN.sub (List.subset_cons_self _ _))
        exact ⟨_, T', .again (hpath ▸ hto) ((hS _ hne).mpr hp) h1, h2, h3⟩
  | schema hto hp hk' hr _ ih =>
    intro items' T hd hS hN
    have hne := hN.here List.mem_cons_self hto
    cases hd with
    | cons hx hd =>
      cases hx with
      | import_ hk hpath =>
        obtain ⟨es', T', h1, h2, h3, h4, h5⟩ :=
          ih he hd hS.cons (hN.sub (List.subset_cons_self _ _))
        exact ⟨_, T', .schema (hpath ▸ hto) (fun h => hp ((hS _ hne).mp h)) (hk ▸ hk') hr h1,
          .cons .schema h2, h3, fun h => (List.mem_cons.mp (h4 h)).resolve_left (Ne.symm hne),
          fun h => (List.mem_cons.mp (h5 h)).resolve_left (Ne.symm hne)⟩
  | protocol hto hp hk' hr _ ih =>
    intro items' T hd hS hN
    have hne := hN.here List.mem_cons_self hto
    cases hd with
    | cons hx hd =>
      cases hx with
      | import_ hk hpath =>
        obtain ⟨es', T', h1, h2, h3, h4, h5⟩ :=
          ih he hd hS.cons (hN.sub (List.subset_cons_self _ _))
        exact ⟨_, T', .protocol (hpath ▸ hto) (fun h => hp ((hS _ hne).mp h)) (hk ▸ hk') hr h1,
          .cons .protocol h2, h3, fun h => (List.mem_cons.mp (h4 h)).resolve_left (Ne.symm hne),
          fun h => (List.mem_cons.mp (h5 h)).resolve_left (Ne.symm hne)⟩
  | idl hto hp hk' hr _ _ ih1 ih2 =>
    intro items' T hd hS hN
    have hne := hN.here List.mem_cons_self hto
    cases hd with
    | cons hx hd =>
      cases hx with
      | import_ hk hpath =>
        obtain ⟨es1, T1, a1, a2, a3, a4, a5⟩ :=
          ih1 rfl (sameDecls_refl _) hS.cons (hN.inside List.mem_cons_self hk' hto hr)
        obtain ⟨es2, T2, b1, b2, b3, b4, b5⟩ :=
          ih2 he hd a3 (hN.sub (List.subset_cons_self _ _))
        refine ⟨_, T2, .idl (hpath ▸ hto) (fun h => hp ((hS _ hne).mp h)) (hk ▸ hk') hr a1 b1,
          ?_, b3, fun h => (List.mem_cons.mp (a4 (b4 h))).resolve_left (Ne.symm hne),
          fun h => (List.mem_cons.mp (a5 (b5 h))).resolve_left (Ne.symm hne)⟩
        rw [← hpath]
        exact .cons .idl (List.rel_append a2 b2)

theorem Spec.Trace.split {dir : Path} {S S' : List Path} {a b : List DeclItem} {es : List Event}
    (h : Trace w dirs dir S (a ++ b) es (.finished S')) :
    ∃ es1 es2 S1, es = es1 ++ es2 ∧ Trace w dirs dir S a es1 (.finished S1) ∧
      Trace w dirs dir S1 b es2 (.finished S') := by
  generalize he : Ending.finished S' = e at h
  generalize hi : a ++ b = items at h
  induction h generalizing S' a with
  | nil =>
    obtain ⟨rfl, rfl⟩ := List.append_eq_nil_iff.mp hi
    injection he with he
    subst he
    exact ⟨[], [], _, rfl, .nil, .nil⟩
  | cut => cases he
  | notFound => cases he
  | notCanonical => cases he
  | badJson => cases he
  | badIdl => cases he
  | idlEnds _ _ _ _ _ hne => exact absurd he.symm (hne _)
  | type ht ih =>
    cases a with
    | nil => subst he; exact ⟨[], _, _, rfl, .nil, by rw [show b = _ from hi]; exact .type ht⟩
    | cons d a =>
      injection hi with h1 h2
      obtain ⟨es1, es2, S1, e1, e2, e3⟩ := ih he h2
      subst h1 e1
      exact ⟨_ :: es1, es2, S1, rfl, .type e2, e3⟩
  | again hto hp ht ih =>
    cases a with
    | nil => subst he; exact ⟨[], _, _, rfl, .nil, by rw [show b = _ from hi]; exact .again hto hp ht⟩
    | cons d a =>
      injection hi with h1 h2
      obtain ⟨es1, es2, S1, e1, e2, e3⟩ := ih he h2
      subst h1 e1
      exact ⟨es1, es2, S1, rfl, .again hto hp e2, e3⟩
  | schema hto hp hk hr ht ih =>
    cases a with
    | nil =>
      subst he
      exact ⟨[], _, _, rfl, .nil, by rw [show b = _ from hi]; exact .schema hto hp hk hr ht⟩
    | cons d a =>
      injection hi with h1 h2
      obtain ⟨es1, es2, S1, e1, e2, e3⟩ := ih he h2
      subst h1 e1
      exact ⟨_ :: es1, es2, S1, rfl, .schema hto hp hk hr e2, e3⟩
  | protocol hto hp hk hr ht ih =>
    cases a with
    | nil =>
      subst he
      exact ⟨[], _, _, rfl, .nil, by rw [show b = _ from hi]; exact .protocol hto hp hk hr ht⟩
    | cons d a =>
      injection hi with h1 h2
      obtain ⟨es1, es2, S1, e1, e2, e3⟩ := ih he h2
      subst h1 e1
      exact ⟨_ :: es1, es2, S1, rfl, .protocol hto hp hk hr e2, e3⟩
  | @idl dir seen i p file decls ws items es seen' es' e hto hp hk hr ht ht' _ ih =>
    cases a with
    | nil =>
      subst he
      exact ⟨[], _, _, rfl, .nil, by rw [show b = _ from hi]; exact .idl hto hp hk hr ht ht'⟩
    | cons d a =>
      injection hi with h1 h2
      obtain ⟨es1, es2, S1, e1, e2, e3⟩ := ih he h2
      subst h1 e1
      exact ⟨_ :: (es ++ es1), es2, S1, by simp, .idl hto hp hk hr ht e2, e3⟩

theorem Spec.Trace.join {dir : Path} {S S1 : List Path} {a b : List DeclItem} {es1 es2 : List Event}
    {e : Ending} (h : Trace w dirs dir S a es1 (.finished S1))
    (h' : Trace w dirs dir S1 b es2 e) : Trace w dirs dir S (a ++ b) (es1 ++ es2) e := by
  generalize he : Ending.finished S1 = e1 at h
  induction h generalizing S1 with
  | nil => injection he with he; subst he; exact h'
  | cut => cases he
  | notFound => cases he
  | notCanonical => cases he
  | badJson => cases he
  | badIdl => cases he
  | idlEnds _ _ _ _ _ hne => exact absurd he.symm (hne _)
  | type _ ih => exact .type (ih h' he)
  | again hto hp _ ih => exact .again hto hp (ih h' he)
  | schema hto hp hk hr _ ih => exact .schema hto hp hk hr (ih h' he)
  | protocol hto hp hk hr _ ih => exact .protocol hto hp hk hr (ih h' he)
  | idl hto hp hk hr ht _ _ ih =>
    rw [List.cons_append, List.cons_append, List.append_assoc]
    exact .idl hto hp hk hr ht (ih h' he)

end

end Avdl
