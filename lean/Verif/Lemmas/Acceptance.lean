import Verif.Spec.Acceptance
import Verif.Lemmas.Defaults
import Verif.Lemmas.ReaderMeans
import Verif.Props.LogicalTypes
import Verif.Props.Source
/-!
# Which source files the reader accepts
-/

namespace Avdl
open W Spec

/-- Whether a step succeeds does not depend on what happened before, only on `P`. -/
def Accepts {α : Type} (m : W α) (P : Prop) : Prop := ∀ l, (∃ r, m l = .ok r) ↔ P

namespace Accepts

theorem pure {α : Type} {a : α} : Accepts (W.pure a) True := fun l => ⟨fun _ => trivial,
  fun _ => ⟨(a, l), rfl⟩⟩

theorem fail {α : Type} {e : ReadErr} {sp : Option Span} :
    Accepts (α := α) (W.fail e sp) False :=
  fun _ => ⟨fun ⟨_, h⟩ => (by cases h), fun h => h.elim⟩

theorem congr {α : Type} {m : W α} {P Q : Prop} (h : Accepts m P) (hq : P ↔ Q) : Accepts m Q :=
  fun l => (h l).trans hq

theorem bind {α β : Type} {m : W α} {f : α → W β} {P Q : Prop} {R : α → Prop} (hm : Accepts m P)
    (hr : Post m R) (hf : ∀ a, R a → Accepts (f a) Q) : Accepts (W.bind m f) (P ∧ Q) := by
  intro l
  simp only [W.bind]
  constructor
  · rintro ⟨r, h⟩
    cases hl : m l with
    | error e => rw [hl] at h; cases h
    | ok x =>
      rw [hl] at h
      exact ⟨(hm l).mp ⟨x, hl⟩, (hf x.1 (hr l x.1 x.2 hl) x.2).mp ⟨r, h⟩⟩
  · rintro ⟨hp, hq⟩
    obtain ⟨x, hl⟩ := (hm l).mpr hp
    obtain ⟨r, h⟩ := (hf x.1 (hr l x.1 x.2 hl) x.2).mpr hq
    exact ⟨r, by rw [hl]; exact h⟩

theorem lift {α : Type} {x : Except Fault α} : Accepts (W.lift x) (∃ a, x = .ok a) := by
  intro l
  cases x with
  | error e => simp [W.lift]
  | ok a => simp [W.lift]

theorem failIf {b : Bool} {e : ReadErr} {sp : Option Span} :
    Accepts (W.failIf b e sp) (b = false) := by
  cases b with
  | false => exact pure.congr (by simp)
  | true => exact fail.congr (by simp)

theorem warn {w : WalkWarning} : Accepts (W.warn w) True := fun _ => ⟨fun _ => trivial,
  fun _ => ⟨_, rfl⟩⟩

end Accepts

/-! ## Annotations -/

section
variable [CharTables] [FloatTables] [CaseTables]

omit [FloatTables] [CaseTables] in
theorem walkAliases_accepts (sp : Option Span) : ∀ l : List Json,
    Accepts (walkAliases sp l) (∃ ss : List String, l = ss.map .str)
  | [] => Accepts.pure.congr ⟨fun _ => ⟨[], rfl⟩, fun _ => trivial⟩
  | .str s :: js => by
      refine Accepts.congr (P := True ∧ (∃ ss : List String, js = ss.map .str) ∧ True)
        (Accepts.bind ?_ (Post.any _) fun _ _ =>
          (walkAliases_accepts sp js).bind (Post.any _) fun _ _ => .pure) ?_
      · split
        · exact .pure
        · exact .warn
      · constructor
        · rintro ⟨-, ⟨ss, rfl⟩, -⟩; exact ⟨s :: ss, rfl⟩
        · rintro ⟨ss, h⟩
          cases ss with
          | nil => cases h
          | cons x ss => injection h with _ h; exact ⟨trivial, ⟨ss, h⟩, trivial⟩
  | .null :: _ | .bool _ :: _ | .num _ :: _ | .arr _ :: _ | .obj _ :: _ =>
      Accepts.fail.congr ⟨fun h => h.elim, fun ⟨ss, h⟩ => by cases ss <;> cases h⟩

omit [CharTables] [FloatTables] in
theorem parseOrderAnnot_iff (j : Json) :
    (∃ o, parseOrderAnnot j = some o) ↔ ∃ s o, j = .str s ∧ OrderWord s o := by
  constructor
  · rintro ⟨o, h⟩
    have := parseOrderAnnot_means h
    generalize hx : some j = x at this
    generalize some o = y at this
    cases this with
    | absent => cases hx
    | word hw => injection hx with hx; exact ⟨_, _, hx, hw⟩
  · rintro ⟨s, o, rfl, h⟩
    cases h with
    | ascending h => exact ⟨.ascending, by simp [parseOrderAnnot, h]⟩
    | descending h => exact ⟨.descending, by simp [parseOrderAnnot, h]⟩
    | ignore h => exact ⟨.ignore, by simp [parseOrderAnnot, h]⟩

/-- One annotation with its value. -/
structure StepOk (special reserved : List String) (name : String) (v : Json) : Prop where
  allowed : name ∈ reserved → name ∈ special
  namespace_ : "namespace" ∈ special → name = "namespace" → ∃ s, v = .str s
  aliases : "aliases" ∈ special → name = "aliases" → ∃ ss : List String, v = .arr (ss.map .str)
  order : "order" ∈ special → name = "order" → ∃ s o, v = .str s ∧ OrderWord s o

omit [FloatTables] in
theorem annotStep_accepts (ctx : PropCtx) {special reserved : List String}
    (hsp : ∀ k, Special ctx k ↔ k ∈ special) (hr : ∀ k, k ∈ ctx.reserved ↔ k ∈ reserved)
    (acc : SchemaProps) (name : String) (v : Json) (sp : Option Span) :
    Accepts (annotStep ctx acc name v sp) (StepOk special reserved name v) := by
  have hns : "namespace" ∈ special → ctx.withNamespace = true := fun h => by
    simpa [Special] using (hsp _).mpr h
  have hal : "aliases" ∈ special → ctx.withAliases = true := fun h => by
    simpa [Special] using (hsp _).mpr h
  have hor : "order" ∈ special → ctx.withOrder = true := fun h => by
    simpa [Special] using (hsp _).mpr h
  unfold annotStep
  split
  · rename_i h
    simp only [Bool.and_eq_true, beq_iff_eq] at h
    obtain ⟨h1, rfl⟩ := h
    have hm : "namespace" ∈ special := (hsp _).mp (.inl ⟨h1, rfl⟩)
    split
    · refine Accepts.pure.congr ⟨fun _ => ⟨fun _ => hm, fun _ _ => ⟨_, rfl⟩, fun _ h => ?_,
        fun _ h => ?_⟩, fun _ => trivial⟩ <;> simp at h
    · rename_i hv
      refine Accepts.fail.congr ⟨fun h => h.elim, fun h => ?_⟩
      obtain ⟨s, hs⟩ := h.namespace_ hm rfl
      exact hv s hs
  · rename_i h1
    simp only [Bool.and_eq_true, beq_iff_eq, not_and] at h1
    split
    · rename_i h
      simp only [Bool.and_eq_true, beq_iff_eq] at h
      obtain ⟨h2, rfl⟩ := h
      have hm : "aliases" ∈ special := (hsp _).mp (.inr (.inl ⟨h2, rfl⟩))
      split
      · rename_i l
        refine Accepts.congr ((walkAliases_accepts sp l).bind (Post.any _) fun _ _ => .pure) ?_
        constructor
        · rintro ⟨⟨ss, rfl⟩, -⟩
          refine ⟨fun _ => hm, fun _ h => ?_, fun _ _ => ⟨ss, rfl⟩, fun _ h => ?_⟩ <;> simp at h
        · intro h
          obtain ⟨ss, hs⟩ := h.aliases hm rfl
          injection hs with hs
          exact ⟨⟨ss, hs⟩, trivial⟩
      · rename_i hv
        refine Accepts.fail.congr ⟨fun h => h.elim, fun h => ?_⟩
        obtain ⟨ss, hs⟩ := h.aliases hm rfl
        exact hv _ hs
    · rename_i h2
      simp only [Bool.and_eq_true, beq_iff_eq, not_and] at h2
      split
      · rename_i h
        simp only [Bool.and_eq_true, beq_iff_eq] at h
        obtain ⟨h3, rfl⟩ := h
        have hm : "order" ∈ special := (hsp _).mp (.inr (.inr ⟨h3, rfl⟩))
        split
        · rename_i o ho
          refine Accepts.pure.congr ⟨fun _ => ⟨fun _ => hm, fun _ h => ?_, fun _ h => ?_,
            fun _ _ => (parseOrderAnnot_iff v).mp ⟨o, ho⟩⟩, fun _ => trivial⟩ <;> simp at h
        · rename_i hv
          refine Accepts.fail.congr ⟨fun h => h.elim, fun h => ?_⟩
          obtain ⟨o, ho⟩ := (parseOrderAnnot_iff v).mpr (h.order hm rfl)
          rw [hv] at ho; cases ho
      · rename_i h3
        simp only [Bool.and_eq_true, beq_iff_eq, not_and] at h3
        have hs : name ∉ special := by
          intro h
          rcases (hsp _).mpr h with h | h | h
          · exact h1 h.1 h.2
          · exact h2 h.1 h.2
          · exact h3 h.1 h.2
        split
        · rename_i hc
          refine Accepts.fail.congr ⟨fun h => h.elim, fun h => ?_⟩
          exact hs (h.allowed ((hr _).mp (by simpa using hc)))
        · rename_i hc
          refine Accepts.pure.congr ⟨fun _ => ⟨fun h => ?_, fun h e => ?_, fun h e => ?_,
            fun h e => ?_⟩, fun _ => trivial⟩
          · exact absurd ((hr _).mpr h) (by simpa using hc)
          · exact absurd (e ▸ h) hs
          · exact absurd (e ▸ h) hs
          · exact absurd (e ▸ h) hs

omit [CharTables] in
theorem annotsOk_cons {special reserved : List String} {a : Annot} {as : List Annot} {v : Json}
    (hv : walkJson a.value = .ok v) : AnnotsOk special reserved (a :: as) ↔
      StepOk special reserved (identifierText a.name) v ∧ AnnotsOk special reserved as := by
  have hu : ∀ {w}, HasValue a w → v = w := fun h => by
    unfold HasValue at h; rw [hv] at h; injection h
  constructor
  · intro h
    refine ⟨⟨h.allowed a (List.mem_cons_self ..), fun hm hn => ?_, fun hm hn => ?_,
      fun hm hn => ?_⟩, fun b hb => h.readable b (List.mem_cons_of_mem _ hb),
      fun b hb => h.allowed b (List.mem_cons_of_mem _ hb),
      fun hm b hb => h.namespace_ hm b (List.mem_cons_of_mem _ hb),
      fun hm b hb => h.aliases hm b (List.mem_cons_of_mem _ hb),
      fun hm b hb => h.order hm b (List.mem_cons_of_mem _ hb)⟩
    · obtain ⟨s, hs⟩ := h.namespace_ hm a (List.mem_cons_self ..) hn
      exact ⟨s, hu hs⟩
    · obtain ⟨s, hs⟩ := h.aliases hm a (List.mem_cons_self ..) hn
      exact ⟨s, hu hs⟩
    · obtain ⟨s, o, hs, ho⟩ := h.order hm a (List.mem_cons_self ..) hn
      exact ⟨s, o, hu hs, ho⟩
  · rintro ⟨h, h'⟩
    refine ⟨fun b hb => ?_, fun b hb => ?_, fun hm b hb => ?_, fun hm b hb => ?_,
      fun hm b hb => ?_⟩ <;> rcases List.mem_cons.mp hb with rfl | hb
    · exact ⟨v, hv⟩
    · exact h'.readable b hb
    · exact h.allowed
    · exact h'.allowed b hb
    · intro hn
      obtain ⟨s, rfl⟩ := h.namespace_ hm hn
      exact ⟨s, hv⟩
    · exact h'.namespace_ hm b hb
    · intro hn
      obtain ⟨s, rfl⟩ := h.aliases hm hn
      exact ⟨s, hv⟩
    · exact h'.aliases hm b hb
    · intro hn
      obtain ⟨s, o, rfl, ho⟩ := h.order hm hn
      exact ⟨s, o, hv, ho⟩
    · exact h'.order hm b hb

theorem walkAnnots_accepts (ctx : PropCtx) {special reserved : List String}
    (hsp : ∀ k, Special ctx k ↔ k ∈ special) (hr : ∀ k, k ∈ ctx.reserved ↔ k ∈ reserved)
    (as : List Annot) : ∀ acc : SchemaProps,
    Accepts (walkAnnots ctx acc as) (AnnotsOk special reserved as) := by
  induction as with
  | nil =>
    intro acc
    exact Accepts.pure.congr ⟨fun _ => ⟨by simp, by simp, by simp, by simp, by simp⟩,
      fun _ => trivial⟩
  | cons a as ih =>
    intro acc
    simp only [walkAnnots]
    refine Accepts.congr (Accepts.lift.bind (Q := AnnotsOk special reserved (a :: as))
      (Post.lift fun v hv => hv) fun v hv => ?_)
      ⟨fun h => h.2, fun h => ⟨h.readable a (List.mem_cons_self ..), h⟩⟩
    rw [annotsOk_cons hv]
    exact (annotStep_accepts ctx hsp hr acc _ v _).bind (Post.any _) fun acc' _ => ih acc'

omit [CharTables] [FloatTables] [CaseTables] in
theorem walkDoc_accepts (tokens : List Token) (start : Nat) :
    Accepts (walkDoc tokens start) True := by
  unfold walkDoc
  split
  · exact Accepts.congr (P := True ∧ True) (Accepts.bind
      (fun _ => ⟨fun _ => trivial, fun _ => ⟨_, rfl⟩⟩) (Post.any _) fun _ _ => .pure) (by simp)
  · exact .pure

omit [CharTables] [CaseTables] in
/-- The names that have a value are those written. -/
theorem annotationValue_names {as : List Annot} (h : ∀ a ∈ as, ∃ j, walkJson a.value = .ok j)
    (k : String) : annotationValue as k ≠ none ↔ k ∈ as.map fun a => identifierText a.name := by
  induction as with
  | nil => simp [annotationValue_nil]
  | cons a as ih =>
    have ht := fun b hb => h b (List.mem_cons_of_mem _ hb)
    obtain ⟨j, hj⟩ := h a (List.mem_cons_self ..)
    rw [annotationValue_cons hj as k ht, List.map_cons, List.mem_cons, ← ih ht]
    by_cases he : identifierText a.name = k
    · subst he; cases annotationValue as (identifierText a.name) <;> simp
    · have he' : ¬ k = identifierText a.name := fun e => he e.symm
      cases annotationValue as k <;> simp [he, he']

/-- The properties collected are named like the annotations, if none is special. -/
theorem walkAnnots_keys (ctx : PropCtx) (hsp : ∀ k, Special ctx k ↔ k ∈ ([] : List String))
    (as : List Annot) : Post (walkAnnots ctx {} as) fun p =>
      (p.props.isEmpty = as.isEmpty) ∧ (p.props.map Prod.fst).Nodup ∧
      ∀ k, k ∈ p.props.map Prod.fst ↔ k ∈ as.map fun a => identifierText a.name := by
  refine (((walkAnnots_means ctx [] hsp as).and (walkAnnots_means_acc ctx as {})).and
    (walkAnnots_ok ctx as {} ⟨⟨List.nodup_nil, heldEntries_nil⟩, fun _ hx => nomatch hx⟩)).mono
    fun p hp => ?_
  obtain ⟨⟨⟨hp1, -⟩, -, hv⟩, hok⟩ := hp
  have hn : (p.props.map Prod.fst).Nodup := hok.1.1
  have hk : ∀ k, k ∈ p.props.map Prod.fst ↔ k ∈ as.map fun a => identifierText a.name := by
    intro k
    rw [← annotationValue_names hv k]
    have h := hp1 k
    rw [if_neg (by simp)] at h
    rw [← h]
    constructor
    · intro hm
      obtain ⟨x, hx, rfl⟩ := List.mem_map.mp hm
      exact Props.get?_some_mem hx
    · intro hne
      refine Classical.byContradiction fun hm => hne (JMap.get?_none_of_forall fun x hx e => ?_)
      exact hm (e ▸ List.mem_map_of_mem hx)
  refine ⟨?_, hn, hk⟩
  cases hps : p.props with
  | nil =>
    cases as with
    | nil => rfl
    | cons a as => have := (hk (identifierText a.name)).mpr (by simp); rw [hps] at this; cases this
  | cons x xs =>
    cases as with
    | nil => have := (hk x.1).mp (by rw [hps]; simp); cases this
    | cons a as => rfl

/-! ## Types -/

omit [CharTables] [FloatTables] [CaseTables] in
theorem walkPrim_iff (p : PrimTok) (s : Schema) : walkPrim p = .ok s ↔ KeywordMeans p s := by
  constructor
  · exact fun h => (walkPrim_means h).1
  · intro h
    cases h with
    | decimal h1 h2 =>
      simp only [walkPrim, h1]
      rw [if_neg (by omega), if_neg (by omega)]
    | decimalScale h1 h2 h3 h4 =>
      simp only [walkPrim, h1, h2]
      rw [if_neg (by omega), if_neg (by omega)]
    | _ => rfl

omit [CharTables] [FloatTables] [CaseTables] in
/-- The basic facts about what a keyword stands for. -/
theorem Spec.KeywordMeans.facts {p : PrimTok} {s : Schema} (h : KeywordMeans p s) :
    (s = .prim .null ↔ p = .prim .null) ∧ isTypeReference s = false ∧ s.isUnion = false ∧
    s.unionKey = (storedAs p).asStr ∧ ∀ v, isValidDefault v s = validPrim v (storedAs p) := by
  cases h <;> simp [isTypeReference, Schema.isUnion, Schema.unionKey, storedAs, isValidDefault,
    LogicalType.base]

omit [CharTables] [CaseTables] in
theorem isTypeReference_iff {ns : Option String} {t : PlainType} {s : Schema}
    (h : PlainMeans ns t s) :
    isTypeReference s = true ↔ ∃ ident span o, t = .named ident span o := by
  cases h with
  | array h => simp [isTypeReference]
  | map h => simp [isTypeReference]
  | union h => simp [isTypeReference]
  | prim hk ho =>
    have := hk.facts.2.1
    cases ho with
    | no => simp [this]
    | yes hn => 
      simp only [isTypeReference, List.any_cons, List.any_nil]
      cases hk <;> simp
  | named hr ho =>
    cases ho with
    | no => simp [isTypeReference]
    | yes hn => simp [isTypeReference]

omit [CharTables] [CaseTables] in
theorem Spec.PlainMeans.union_iff {ns : Option String} {t : PlainType} {s : Schema} (as : List Annot)
    (sp : Option Span) (h : PlainMeans ns t s) : s.isUnion = true ↔ IsUnionType (.mk as t sp) := by
  cases h with
  | array h => exact ⟨fun h => by simp [Schema.isUnion] at h, fun h => by cases h⟩
  | map h => exact ⟨fun h => by simp [Schema.isUnion] at h, fun h => by cases h⟩
  | union h => exact ⟨fun _ => .union, fun _ => rfl⟩
  | prim hk ho =>
    cases ho with
    | no => rw [hk.facts.2.2.1]; exact ⟨fun h => by simp at h, fun h => by cases h⟩
    | yes hn => exact ⟨fun _ => .prim, fun _ => rfl⟩
  | named hr ho =>
    cases ho with
    | no => exact ⟨fun h => by simp [Schema.isUnion] at h, fun h => by cases h⟩
    | yes hn => exact ⟨fun _ => .named, fun _ => rfl⟩

omit [CharTables] [FloatTables] [CaseTables] in
/-- Annotations change none of this. -/
theorem Spec.Annotated.facts {value : String → Option Json} {s s' : Schema} (h : Annotated value s s') :
    s'.isUnion = s.isUnion ∧ s'.unionKey = s.unionKey ∧
    ∀ v, isValidDefault v s' = isValidDefault v s := by
  induction h with
  | optional h ih =>
    refine ⟨rfl, rfl, fun v => ?_⟩
    simp [isValidDefault, validAny, ih.2.2 v]
  | promoted h => simp [Schema.isUnion, Schema.unionKey, isValidDefault]
  | _ => simp [Schema.isUnion, Schema.unionKey, isValidDefault]

omit [CharTables] [CaseTables] in
theorem Spec.TypeMeans.union_iff {ns : Option String} {t : FullType} {s : Schema}
    (h : TypeMeans ns t s) : s.isUnion = true ↔ IsUnionType t := by
  cases h with
  | plain ha h => exact h.union_iff _ _
  | annotated ha h hs => rw [hs.facts.1]; exact h.union_iff _ _

omit [CharTables] [FloatTables] [CaseTables] in
theorem referenceName_unique {ns : Option String} {ident name name' : String}
    {ns1 ns2 : Option String} (h : ReferenceName ns ident name ns1)
    (h' : ReferenceName ns ident name' ns2) : name = name' ∧ ns1 = ns2 := by
  have key : ∀ {n m}, ReferenceName ns ident n m → DeclaredName ns none ident n m := by
    intro n m h
    cases h with
    | dotted h1 h2 => exact .dotted h1 h2
    | plain h => exact .inherited h rfl
  exact Props.C28_names_determined (key h) (key h')

omit [CharTables] [CaseTables] in
theorem Spec.PlainMeans.memberName {ns : Option String} {t : PlainType} {s : Schema} (as : List Annot)
    (sp : Option Span) (h : PlainMeans ns t s) (hu : ¬ IsUnionType (.mk as t sp)) (x : String) :
    MemberName ns (.mk as t sp) x ↔ x = s.unionKey := by
  cases h with
  | array h => exact ⟨fun h => by cases h; rfl, fun h => by rw [h]; exact .array⟩
  | map h => exact ⟨fun h => by cases h; rfl, fun h => by rw [h]; exact .map⟩
  | union h => exact absurd .union hu
  | prim hk ho =>
    cases ho with
    | no =>
      rw [hk.facts.2.2.2.1]
      exact ⟨fun h => by cases h; rfl, fun h => by rw [h]; exact .keyword⟩
    | yes hn => exact absurd .prim hu
  | named hr ho =>
    cases ho with
    | no =>
      constructor
      · intro h
        cases h with
        | named hr' =>
          obtain ⟨h1, h2⟩ := referenceName_unique hr hr'
          rw [← h1, ← h2]; rfl
      · rintro rfl
        exact .named hr
    | yes hn => exact absurd .named hu

omit [CharTables] [CaseTables] in
theorem Spec.TypeMeans.memberName {ns : Option String} {t : FullType} {s : Schema}
    (h : TypeMeans ns t s) (hu : ¬ IsUnionType t) (x : String) :
    MemberName ns t x ↔ x = s.unionKey := by
  cases h with
  | plain ha h => exact h.memberName _ _ hu x
  | annotated ha h hs => rw [hs.facts.2.1]; exact h.memberName _ _ hu x

omit [CharTables] [CaseTables] in
theorem typesMean_members {ns : Option String} {ts : List FullType} {ss : List Schema}
    (h : TypesMean ns ts ss) : (ss.any Schema.isUnion = false ↔ ∀ t ∈ ts, ¬ IsUnionType t) ∧
      ((∀ t ∈ ts, ¬ IsUnionType t) → ((ss.map Schema.unionKey).Nodup ↔
        ts.Pairwise fun t u => ∀ x, MemberName ns t x → ¬ MemberName ns u x)) := by
  have hmem : ∀ {ts ss}, TypesMean ns ts ss → (∀ t ∈ ts, ¬ IsUnionType t) → ∀ x,
      x ∈ ss.map Schema.unionKey ↔ ∃ t ∈ ts, MemberName ns t x := by
    intro ts ss h hu x
    induction ts generalizing ss with
    | nil => cases h; simp
    | cons t ts ih =>
      cases h with
      | cons h1 h2 =>
        have hu' := fun t ht => hu t (List.mem_cons_of_mem _ ht)
        rw [List.map_cons, List.mem_cons, ih h2 hu',
          ← h1.memberName (hu t (List.mem_cons_self ..)) x]
        simp
  induction ts generalizing ss with
  | nil => cases h; simp
  | cons t ts ih =>
    cases h with
    | @cons _ s _ ss h1 h2 =>
      obtain ⟨i1, i2⟩ := ih h2
      refine ⟨?_, fun hu => ?_⟩
      · rw [List.any_cons, Bool.or_eq_false_iff, i1, ← Bool.not_eq_true, h1.union_iff]
        simp
      · have hu' := fun t ht => hu t (List.mem_cons_of_mem _ ht)
        have hn := h1.memberName (hu t (List.mem_cons_self ..))
        rw [List.map_cons, List.nodup_cons, List.pairwise_cons, i2 hu', hmem h2 hu']
        refine and_congr_left fun _ => ?_
        constructor
        · intro h u hum x hx hx'
          rw [hn x] at hx; subst hx
          exact h ⟨u, hum, hx'⟩
        · rintro h ⟨u, hum, hx⟩
          exact h u hum _ ((hn _).mpr rfl) hx

omit [CharTables] [FloatTables] [CaseTables] in
theorem firstDuplicate_none_iff {ks : List String} : ∀ {seen : List String}
    {sps : List (Option Span)}, firstDuplicate seen ks sps = none ↔ ks.Nodup ∧ ∀ k ∈ ks, k ∉ seen := by
  induction ks with
  | nil => simp [firstDuplicate]
  | cons k ks ih =>
    intro seen sps
    simp only [firstDuplicate]
    split
    · rename_i h
      simp only [reduceCtorEq, false_iff]
      exact fun hc => hc.2 k (List.mem_cons_self ..) (by simpa using h)
    · rename_i h
      rw [ih, List.nodup_cons]
      simp only [List.mem_append, not_or, List.mem_cons, forall_eq_or_imp]
      have : k ∉ seen := by simpa using h
      constructor
      · rintro ⟨h1, h2⟩
        exact ⟨⟨fun hk => (h2 k hk).2.1 rfl, h1⟩, this, fun x hx => (h2 x hx).1⟩
      · rintro ⟨⟨h1, h2⟩, -, h3⟩
        exact ⟨h2, fun x hx => ⟨h3 x hx, fun e => h1 (e ▸ hx), by simp⟩⟩

omit [CharTables] [CaseTables] in
theorem checkUnion_accepts {ns : Option String} {ts : List FullType} {ss : List Schema}
    (h : TypesMean ns ts ss) (sps : List (Option Span)) :
    (∃ s, checkUnion ss sps = .ok s) ↔ (∀ t ∈ ts, ¬ IsUnionType t) ∧
      ts.Pairwise fun t u => ∀ x, MemberName ns t x → ¬ MemberName ns u x := by
  obtain ⟨h1, h2⟩ := typesMean_members h
  have h0 : firstUnion ss sps = none ↔ ∀ t ∈ ts, ¬ IsUnionType t := by
    rw [← h1, firstUnion_none, List.any_eq_false]
    simp
  unfold checkUnion
  split
  · rename_i sp hu
    have : ¬ ∀ t ∈ ts, ¬ IsUnionType t := by rw [← h0, hu]; simp
    simp [this]
  · rename_i hu
    rw [h0] at hu
    rw [← h2 hu]
    have := firstDuplicate_none_iff (ks := ss.map Schema.unionKey) (seen := []) (sps := sps)
    split
    · rename_i k hk
      rw [hk] at this
      have : ¬ (ss.map Schema.unionKey).Nodup := fun hc => by simpa using this.mpr ⟨hc, by simp⟩
      simp [this]
    · rename_i hk
      exact ⟨fun _ => ⟨hu, (this.mp hk).1⟩, fun _ => ⟨_, rfl⟩⟩

omit [CharTables] [FloatTables] [CaseTables] in
theorem wrapOptional_iff {o : Bool} {sp : Option Span} {s : Schema} :
    (∃ t, wrapOptional o sp s = .ok t) ↔ (o = true → s ≠ .prim .null) := by
  unfold wrapOptional
  cases o with
  | false => simp
  | true =>
    rw [if_pos rfl]
    split
    · simp
    · rename_i h
      simpa using h

omit [CharTables] [FloatTables] [CaseTables] in
theorem finishFullType_accepts (ps : Props) (sp : Option Span) (s : Schema) :
    Accepts (finishFullType ps sp s)
    (ps.isEmpty = false → isTypeReference s = false) := by
  unfold finishFullType
  split
  · rename_i h; exact Accepts.pure.congr (by simp [h])
  · rename_i h
    split
    · rename_i h'; exact Accepts.fail.congr (by simp [h, h'])
    · rename_i h'
      refine Accepts.congr (Accepts.bind (P := True) ?_ (Post.any _) fun _ _ => .pure)
        (by simp [h'])
      split
      · exact .warn
      · exact .pure

mutual
theorem walkFullType_accepts (ns : Option String) : ∀ t : FullType,
    Accepts (walkFullType ns t) (TypeOk ns t)
  | .mk annots t _ => by
      simp only [walkFullType]
      refine Accepts.congr ((walkAnnots_accepts bareCtx (special := []) (reserved := typeAttributes)
        (by simp [Special, bareCtx]) (fun k => ?_) annots {}).bind
        (walkAnnots_keys bareCtx (by simp [Special, bareCtx]) annots) fun p hp =>
        (walkPlainType_accepts ns t).bind (walkPlainType_means ns t) fun s hs =>
        (finishFullType_accepts p.props _ s).congr
          (Q := annots ≠ [] → ∀ ident span o, t ≠ .named ident span o) ?_) ?_
      · simp only [bareCtx, schemaReserved, typeAttributes, List.mem_cons, List.not_mem_nil]
        grind
      · rw [hp.1, ← Bool.not_eq_true (isTypeReference s), isTypeReference_iff hs.1]
        cases annots <;> simp
      · exact ⟨fun ⟨h1, h2, h3⟩ => .mk h1 h2 h3, fun h => by
          cases h with
          | mk h1 h2 h3 => exact ⟨h1, h2, h3⟩⟩
theorem walkPlainType_accepts (ns : Option String) : ∀ t : PlainType,
    Accepts (walkPlainType ns t) (PlainOk ns t)
  | .array t => by
      simp only [walkPlainType]
      refine Accepts.congr ((walkFullType_accepts ns t).bind (Post.any _) fun _ _ => .pure) ?_
      exact ⟨fun h => .array h.1, fun h => by cases h with | array h => exact ⟨h, trivial⟩⟩
  | .map t => by
      simp only [walkPlainType]
      refine Accepts.congr ((walkFullType_accepts ns t).bind (Post.any _) fun _ _ => .pure) ?_
      exact ⟨fun h => .map h.1, fun h => by cases h with | map h => exact ⟨h, trivial⟩⟩
  | .union ts => by
      simp only [walkPlainType]
      refine Accepts.congr ((walkFullTypes_accepts ns ts).bind (walkFullTypes_means ns ts)
        fun ss hss => Accepts.lift.congr (checkUnion_accepts hss _)) ?_
      exact ⟨fun h => .union h.1 h.2.1 h.2.2, fun h => by
        cases h with
        | union h1 h2 h3 => exact ⟨h1, h2, h3⟩⟩
  | .prim p o _ => by
      simp only [walkPlainType]
      refine Accepts.congr (Accepts.lift.bind (Post.lift fun s hs => hs) fun s hs =>
        (Accepts.lift.congr wrapOptional_iff).congr (Q := o = true → p ≠ .prim .null) ?_) ?_
      · exact imp_congr_right fun _ => not_congr (walkPrim_means hs).1.facts.1
      · exact ⟨fun ⟨⟨s, h⟩, h'⟩ => .prim ((walkPrim_iff p s).mp h) h', fun h => by
          cases h with
          | prim h1 h2 => exact ⟨⟨_, (walkPrim_iff p _).mpr h1⟩, h2⟩⟩
  | .named ident span o => by
      simp only [walkPlainType]
      refine (Accepts.lift.congr wrapOptional_iff).congr ⟨fun _ => .named, fun _ _ => ?_⟩
      obtain ⟨n, ns', h1, h2⟩ := refTo_means (identifierText ident) span ns
      rw [h2]
      simp
theorem walkFullTypes_accepts (ns : Option String) : ∀ ts : List FullType,
    Accepts (walkFullTypes ns ts) (∀ t ∈ ts, TypeOk ns t)
  | [] => by simp only [walkFullTypes]; exact Accepts.pure.congr (by simp)
  | t :: ts => by
      simp only [walkFullTypes]
      refine Accepts.congr ((walkFullType_accepts ns t).bind (Post.any _) fun _ _ =>
        (walkFullTypes_accepts ns ts).bind (Post.any _) fun _ _ => .pure) (by simp)
end

/-! ## Defaults -/

omit [CharTables] [CaseTables]

mutual
theorem valid_iff_fitsType (ns : Option String) : ∀ (t : FullType) (s : Schema),
    TypeMeans ns t s → ∀ v, isValidDefault v s = true ↔ FitsType v t
  | .mk as t sp, s, h, v => by
      cases h with
      | plain ha h => exact valid_iff_fitsPlain ns as sp t s h v
      | annotated ha h hs => rw [hs.facts.2.2 v]; exact valid_iff_fitsPlain ns as sp t _ h v
theorem valid_iff_fitsPlain (ns : Option String) (as : List Annot) (sp : Option Span) :
    ∀ (t : PlainType) (s : Schema),
    PlainMeans ns t s → ∀ v, isValidDefault v s = true ↔ FitsType v (.mk as t sp)
  | .array t, s, h, v => by
      cases h with
      | array h =>
        simp only [isValidDefault]
        split
        · rename_i l
          rw [List.all_eq_true]
          constructor
          · exact fun h' => .array fun v hv => (valid_iff_fitsType ns t _ h v).mp (h' v hv)
          · intro h' v hv
            cases h' with
            | array h' => exact (valid_iff_fitsType ns t _ h v).mpr (h' v hv)
        · rename_i hn
          refine ⟨fun h => by simp at h, fun h' => ?_⟩
          cases h' with
          | array h' => exact absurd rfl (hn _)
  | .map t, s, h, v => by
      cases h with
      | map h =>
        simp only [isValidDefault]
        split
        · rename_i o
          rw [List.all_eq_true]
          constructor
          · exact fun h' => .map fun kv hv => (valid_iff_fitsType ns t _ h _).mp (h' kv hv)
          · intro h' kv hv
            cases h' with
            | map h' => exact (valid_iff_fitsType ns t _ h _).mpr (h' kv hv)
        · rename_i hn
          refine ⟨fun h => by simp at h, fun h' => ?_⟩
          cases h' with
          | map h' => exact absurd rfl (hn _)
  | .union ts, s, h, v => by
      cases h with
      | union h =>
        simp only [isValidDefault]
        rw [validAny_iff, valid_iff_fitsTypes ns ts _ h v]
        constructor
        · rintro ⟨t, ht, h'⟩; exact .union ht h'
        · intro h'
          cases h' with
          | union ht h' => exact ⟨_, ht, h'⟩
  | .prim p o _, s, h, v => by
      cases h with
      | prim hk ho =>
        have hf := hk.facts.2.2.2.2 v
        have hc := validPrim_iff v (storedAs p)
        cases ho with
        | no =>
          rw [hf, hc]
          exact ⟨.keyword, fun h => by cases h with | keyword h => exact h⟩
        | yes hn =>
          simp only [isValidDefault, validAny, Bool.or_false, Bool.or_eq_true]
          rw [hf, hc, validPrim_iff]
          constructor
          · rintro (h | h)
            · cases h; exact .null
            · exact .keyword h
          · intro h
            cases h with
            | keyword h => exact .inr h
            | null => exact .inl .null
  | .named ident span o, s, h, v => by
      refine ⟨fun _ => .named, fun _ => ?_⟩
      cases h with
      | named hr ho =>
        cases ho with
        | no => simp [isValidDefault]
        | yes hn => simp [isValidDefault, validAny]
theorem valid_iff_fitsTypes (ns : Option String) : ∀ (ts : List FullType) (ss : List Schema),
    TypesMean ns ts ss → ∀ v, (∃ s ∈ ss, isValidDefault v s = true) ↔ ∃ t ∈ ts, FitsType v t
  | [], ss, h, v => by cases h; simp
  | t :: ts, ss, h, v => by
      cases h with
      | cons h1 h2 =>
        have i1 := valid_iff_fitsType ns t _ h1 v
        have i2 := valid_iff_fitsTypes ns ts _ h2 v
        simp [List.mem_cons, or_and_right, exists_or, i1, i2]
end

omit [CharTables] [FloatTables] [CaseTables] in
theorem fixOptional_valid (s : Schema) (d : Option Json) (v : Json) :
    isValidDefault v (fixOptional s d) = isValidDefault v s := by
  unfold fixOptional
  split
  · split
    · rfl
    · rfl
    · simp [isValidDefault, validAny, Bool.or_comm]
  · rfl

end

end Avdl
