import Verif.Spec.Source
import Verif.Lemmas.ReaderDecls
import Verif.Props.Annotations
import Verif.Props.LogicalTypes
/-! # The reader implements the specification of declarations -/

namespace Avdl
open W Spec Props

section
variable [CharTables] [FloatTables] [CaseTables]

/-! ## Annotations -/

omit [CharTables] [CaseTables] in
theorem annotationValue_nil (k : String) : annotationValue [] k = none := rfl

omit [CharTables] [CaseTables] in
theorem annotationValue_cons {a : Annot} {j : Json} (hj : walkJson a.value = .ok j)
    (as : List Annot) (k : String) (hall : ∀ b ∈ as, ∃ j, walkJson b.value = .ok j) :
    annotationValue (a :: as) k =
      (annotationValue as k).or (if identifierText a.name = k then some j else none) := by
  unfold annotationValue
  have hl : ∀ {v}, lastAnnotation k as = some v → ∃ j, walkJson v = .ok j := by
    clear hj
    induction as with
    | nil => intro v h; cases h
    | cons b bs ih =>
      intro v h
      simp only [lastAnnotation] at h
      split at h
      · rename_i w hw
        cases h
        exact ih (fun c hc => hall c (List.mem_cons_of_mem _ hc)) hw
      · split at h
        · cases h; exact hall b (List.mem_cons_self ..)
        · cases h
  simp only [lastAnnotation]
  cases h : lastAnnotation k as with
  | some v =>
    obtain ⟨w, hw⟩ := hl h
    simp [hw, Except.toOption]
  | none =>
    simp only [Option.bind_none, Option.none_or]
    split
    · simp [hj, Except.toOption]
    · rfl

/-- A setting after looking at a value: unchanged if there is none. -/
def Updated {α : Type} (R : Json → α → Prop) (v : Option Json) (old new : α) : Prop :=
  match v with
  | none => new = old
  | some j => R j new

omit [CharTables] [FloatTables] [CaseTables] in
theorem Updated.trans {α : Type} {R : Json → α → Prop} {v w : Option Json} {x y z : α}
    (h1 : Updated R v x y) (h2 : Updated R w y z) : Updated R (w.or v) x z := by
  cases w with
  | none =>
    have : z = y := h2
    rw [Option.none_or, this]; exact h1
  | some j => exact h2

/-- The namespace a value sets. -/
def NsIs (j : Json) (ns : Option String) : Prop := ∃ s, j = .str s ∧ ns = some s

/-- The aliases a value sets. -/
def AliasesAre (j : Json) (al : List String) : Prop :=
  ∃ l, j = .arr l ∧ al = l.filterMap (fun j => match j with
    | .str s => some s
    | _ => none)

/-- The sort order a value sets. -/
def OrderIs (j : Json) (o : Option FieldOrder) : Prop := ∃ x, parseOrderAnnot j = some x ∧ o = some x

omit [CharTables] [FloatTables] in
theorem parseOrderAnnot_means {j : Json} {o : FieldOrder} (h : parseOrderAnnot j = some o) :
    OrderMeans (some j) (some o) := by
  cases j with
  | str s =>
    simp only [parseOrderAnnot] at h
    split at h
    · rename_i hs
      injection h with h; subst h; exact .word (.ascending hs)
    split at h
    · rename_i hs
      injection h with h; subst h; exact .word (.descending hs)
    split at h
    · rename_i hs
      injection h with h; subst h; exact .word (.ignore hs)
    · cases h
  | _ => cases h

/-- What a list of annotations, given by the value of each name, does. -/
structure AnnotsMean (ctx : PropCtx) (acc : SchemaProps) (value : String → Option Json)
    (p : SchemaProps) : Prop where
  props : ∀ k, p.props.get? k = if Special ctx k then acc.props.get? k
    else (value k).or (acc.props.get? k)
  ns : ctx.withNamespace = true → Updated NsIs (value "namespace") acc.ns p.ns
  aliases : ctx.withAliases = true → Updated AliasesAre (value "aliases") acc.aliases p.aliases
  order : ctx.withOrder = true → Updated OrderIs (value "order") acc.order p.order

omit [FloatTables] [CaseTables] in
theorem walkAliases_means (sp : Option Span) : ∀ l : List Json, Post (walkAliases sp l) fun al =>
    al = l.filterMap (fun j => match j with
      | .str s => some s
      | _ => none)
  | [] => .pure rfl
  | .str s :: js => by
      refine (Post.any _).bind fun _ _ => ?_
      refine (walkAliases_means sp js).bind fun rest hr => .pure ?_
      rw [hr]; rfl
  | .null :: _ | .bool _ :: _ | .num _ :: _ | .arr _ :: _ | .obj _ :: _ => .fail

/-- The values given by one annotation. -/
def single (name : String) (v : Json) (k : String) : Option Json :=
  if name = k then some v else none

omit [FloatTables] in
theorem annotStep_means (ctx : PropCtx) (acc : SchemaProps) (name : String) (v : Json)
    (sp : Option Span) : Post (annotStep ctx acc name v sp) (AnnotsMean ctx acc (single name v)) := by
  have hno : ∀ {α : Type} {R : Json → α → Prop} {k : String} {x : α}, name ≠ k →
      Updated R (single name v k) x x := by
    intro α R k x h
    unfold single
    rw [if_neg h]; rfl
  unfold annotStep
  split
  · rename_i h
    simp only [Bool.and_eq_true, beq_iff_eq] at h
    split
    · rename_i s
      refine .pure ⟨fun k => ?_, fun _ => ?_, fun _ => hno (by rw [h.2]; decide),
        fun _ => hno (by rw [h.2]; decide)⟩
      · unfold single
        split
        · rfl
        · rename_i hk
          rw [if_neg, Option.none_or]
          rintro rfl; exact hk (Or.inl h)
      · unfold single
        rw [if_pos h.2]
        exact ⟨s, rfl, rfl⟩
    · exact .fail
  · rename_i h1
    simp only [Bool.and_eq_true, beq_iff_eq, not_and] at h1
    split
    · rename_i h
      simp only [Bool.and_eq_true, beq_iff_eq] at h
      split
      · rename_i l
        refine (walkAliases_means sp l).bind fun al hal => .pure ⟨fun k => ?_,
          fun _ => hno (by rw [h.2]; decide), fun _ => ?_, fun _ => hno (by rw [h.2]; decide)⟩
        · unfold single
          split
          · rfl
          · rename_i hk
            rw [if_neg, Option.none_or]
            rintro rfl; exact hk (Or.inr (Or.inl h))
        · unfold single
          rw [if_pos h.2]
          exact ⟨l, rfl, hal⟩
      · exact .fail
    · rename_i h2
      simp only [Bool.and_eq_true, beq_iff_eq, not_and] at h2
      split
      · rename_i h
        simp only [Bool.and_eq_true, beq_iff_eq] at h
        split
        · rename_i o ho
          refine .pure ⟨fun k => ?_, fun _ => hno (by rw [h.2]; decide),
            fun _ => hno (by rw [h.2]; decide), fun _ => ?_⟩
          · unfold single
            split
            · rfl
            · rename_i hk
              rw [if_neg, Option.none_or]
              rintro rfl; exact hk (Or.inr (Or.inr h))
          · unfold single
            rw [if_pos h.2]
            exact ⟨o, ho, rfl⟩
        · exact .fail
      · rename_i h3
        simp only [Bool.and_eq_true, beq_iff_eq, not_and] at h3
        split
        · exact .fail
        · refine .pure ⟨fun k => ?_, fun hw => hno (h1 hw), fun hw => hno (h2 hw),
            fun hw => hno (h3 hw)⟩
          have hs : ¬ Special ctx name := by
            rintro (h | h | h)
            · exact h1 h.1 h.2
            · exact h2 h.1 h.2
            · exact h3 h.1 h.2
          rw [get?_insert]
          unfold single
          by_cases hk : k = name
          · subst hk; simp [hs]
          · have hk' : ¬ name = k := fun h => hk h.symm
            simp [hk, hk']

theorem walkAnnots_means_acc (ctx : PropCtx) (as : List Annot) : ∀ acc : SchemaProps,
    Post (walkAnnots ctx acc as) fun p => AnnotsMean ctx acc (annotationValue as) p ∧
      ∀ a ∈ as, ∃ j, walkJson a.value = .ok j := by
  induction as with
  | nil =>
    intro acc
    exact .pure ⟨⟨fun k => by simp [annotationValue_nil], fun _ => rfl, fun _ => rfl,
      fun _ => rfl⟩, by simp⟩
  | cons a as ih =>
    intro acc
    refine (Post.lift fun v hv => hv).bind fun v hv => ?_
    refine (annotStep_means ctx acc (identifierText a.name) v _).bind fun acc' hs => ?_
    refine (ih acc').mono fun p hp => ?_
    have hc : annotationValue (a :: as) =
        fun k => (annotationValue as k).or (single (identifierText a.name) v k) :=
      funext fun k => annotationValue_cons hv as k hp.2
    rw [hc]
    refine ⟨⟨fun k => ?_, fun hw => (hs.ns hw).trans (hp.1.ns hw),
      fun hw => (hs.aliases hw).trans (hp.1.aliases hw),
      fun hw => (hs.order hw).trans (hp.1.order hw)⟩, fun b hb => ?_⟩
    · rw [hp.1.props k, hs.props k]
      split
      · rfl
      · rw [Option.or_assoc]
    · rcases List.mem_cons.mp hb with e | e
      · rw [e]; exact ⟨v, hv⟩
      · exact hp.2 b e

/-- What the annotations of a construct mean. -/
theorem walkAnnots_means (ctx : PropCtx) (special : List String)
    (hsp : ∀ k, Special ctx k ↔ k ∈ special) (as : List Annot) :
    Post (walkAnnots ctx {} as) fun p => PropsMean special as p.props ∧
      (ctx.withNamespace = true → p.ns = stringAnnotation as "namespace") ∧
      (ctx.withAliases = true → p.aliases = stringsAnnotation as "aliases") ∧
      (ctx.withOrder = true → OrderMeans (annotationValue as "order") p.order) := by
  refine (walkAnnots_means_acc ctx as {}).mono fun p ⟨hp, _⟩ => ⟨fun k => ?_, fun hw => ?_,
    fun hw => ?_, fun hw => ?_⟩
  · rw [hp.props k]
    simp [Props.get?, JMap.get?, hsp]
  · have := hp.ns hw
    unfold stringAnnotation
    cases h : annotationValue as "namespace" with
    | none => rw [h] at this; exact this
    | some j => rw [h] at this; obtain ⟨s, rfl, h'⟩ := this; exact h'
  · have := hp.aliases hw
    unfold stringsAnnotation
    cases h : annotationValue as "aliases" with
    | none => rw [h] at this; exact this
    | some j => rw [h] at this; obtain ⟨s, rfl, h'⟩ := this; exact h'
  · have := hp.order hw
    cases h : annotationValue as "order" with
    | none => rw [h] at this; rw [show p.order = none from this]; exact .absent
    | some j => rw [h] at this; obtain ⟨s, h1, h⟩ := this; rw [h]; exact parseOrderAnnot_means h1

/-! ## Names -/

omit [CharTables] [FloatTables] [CaseTables] in
theorem splitFullName_cases (ident : String) :
    (∃ pre name, ident = pre ++ "." ++ name ∧ DotFree name ∧ splitFullName ident = (name, some pre)) ∨
    (DotFree ident ∧ splitFullName ident = (ident, none)) := by
  cases h : rsplitDot ident.toList with
  | none =>
    have := (rsplitDot_none_iff _).mp h
    exact Or.inr ⟨this, splitFullName_dotfree this⟩
  | some ab =>
    obtain ⟨a, b⟩ := ab
    obtain ⟨h1, h2⟩ := rsplitDot_some h
    refine Or.inl ⟨String.ofList a, String.ofList b, ?_, ?_, ?_⟩
    · apply String.toList_inj.mp
      simp [String.toList_append, dot_toList, h1]
    · simpa [DotFree] using h2
    · simp [splitFullName, h]

omit [CharTables] [FloatTables] [CaseTables] in
theorem declaredName (encl annotation : Option String) (ident : String) :
    DeclaredName encl annotation ident (extractName ident)
      ((computeNamespace ident annotation).or encl) := by
  unfold extractName computeNamespace
  rcases splitFullName_cases ident with ⟨pre, name, h1, h2, h3⟩ | ⟨h1, h2⟩
  · rw [h3]; exact .dotted h1 h2
  · rw [h2]
    cases annotation with
    | none => exact .inherited h1 rfl
    | some a => exact .annotated h1 rfl

omit [CharTables] [FloatTables] [CaseTables] in
theorem refTo_means (ident : String) (span : Option Span) (ns : Option String) :
    ∃ name ns', ReferenceName ns ident name ns' ∧ refTo ident span ns = .ref name ns' [] span := by
  unfold refTo
  rcases splitFullName_cases ident with ⟨pre, name, h1, h2, h3⟩ | ⟨h1, h2⟩
  · rw [h3]; exact ⟨_, _, .dotted h1 h2, rfl⟩
  · rw [h2]; exact ⟨_, _, .plain h1, rfl⟩

/-! ## Types -/

omit [CharTables] [FloatTables] [CaseTables] in
theorem get?_extend_nil (ps : Props) (hw : ps.Wf) (k : String) :
    (Props.extend [] ps).get? k = ps.get? k := by
  suffices h : ∀ acc : Props, (∀ x ∈ acc, x.1 ∉ ps.map Prod.fst) → Props.extend acc ps = acc ++ ps by
    rw [h [] (fun _ hx => nomatch hx), List.nil_append]
  intro acc hacc
  unfold Props.extend
  induction ps generalizing acc with
  | nil => simp
  | cons a l ih =>
    have hw' : (a.1 :: l.map Prod.fst).Nodup := hw
    rw [List.nodup_cons] at hw'
    have he : Props.insert acc a.1 a.2 = acc ++ [a] := by
      unfold Props.insert Props.erase
      rw [List.filter_eq_self.mpr]
      intro x hx
      have := hacc x hx
      simp only [List.map_cons, List.mem_cons, not_or] at this
      simpa using this.1
    rw [List.foldl_cons, he, ih hw'.2]
    · simp
    · intro x hx
      rcases List.mem_append.mp hx with hx | hx
      · have := hacc x hx
        simp only [List.map_cons, List.mem_cons, not_or] at this
        exact this.2
      · simp only [List.mem_singleton] at hx
        subst hx; exact hw'.1

omit [CharTables] [FloatTables] [CaseTables] in
theorem namesLogical_decimal {ps : Props} {p s : Nat}
    (hn : ps.get? "logicalType" = some (.str (LogicalType.decimal p s).name))
    (hp : asJavaInt (ps.get? "precision") = some p)
    (hs : s = (asJavaInt (ps.get? "scale")).getD 0) : GivesLogical ps.get? (.decimal p s) := by
  refine ⟨hn, ?_⟩
  rintro p' s' ⟨⟩
  obtain ⟨j, hj, hi, hm⟩ := asJavaInt_iff.mp hp
  refine ⟨⟨j, hj, hi, hm⟩, ?_⟩
  cases h : asJavaInt (ps.get? "scale") with
  | some n =>
    rw [h] at hs
    obtain ⟨j, hj, hi, hm⟩ := asJavaInt_iff.mp h
    exact Or.inl ⟨j, hj, hs ▸ hi, hs ▸ hm⟩
  | none =>
    rw [h] at hs
    refine Or.inr ⟨hs, fun j n hj hi => ?_⟩
    refine Nat.lt_of_not_le fun hle => ?_
    rw [asJavaInt_iff.mpr ⟨j, hj, hi, hle⟩] at h
    cases h

omit [CharTables] [FloatTables] [CaseTables] in
theorem logicalKeys_entries (lt : LogicalType) (n : String) :
    n ∈ logicalKeys lt ↔ n ∈ (logicalEntries lt).map Prod.fst ∧ n ≠ "type" := by
  cases lt <;> simp only [logicalKeys, logicalEntries, List.map_cons,
    List.map_nil, List.append_nil, List.cons_append, List.nil_append, List.mem_cons,
    List.not_mem_nil, or_false] <;> grind

/-- The types a plain type can stand for. -/
inductive Unannotated : Schema → Prop
  | prim (k : Prim) : Unannotated (.prim k)
  | logical (lt : LogicalType) : Unannotated (.logical lt [])
  | array (t : Schema) : Unannotated (.array t [])
  | map (t : Schema) : Unannotated (.map t [])
  | ref (n : String) (ns : Option String) (sp : Option Span) : Unannotated (.ref n ns [] sp)

omit [CharTables] [FloatTables] [CaseTables] in
theorem applyToSchema_annotated {s : Schema} (h : Unannotated s) {ps : Props} (hw : ps.Wf)
    (hr : ¬ IsReference s) : Annotated ps.get? s (applyToSchema s ps) := by
  unfold applyToSchema
  cases h with
  | ref n ns sp => exact absurd .plain hr
  | logical lt => exact .logical (get?_extend_nil ps hw)
  | array t => exact .array (get?_extend_nil ps hw)
  | map t => exact .map (get?_extend_nil ps hw)
  | prim k =>
    change Annotated _ _ (tryPromote (.annotated k ps))
    by_cases hf : Fits k ps.get?
    · obtain ⟨lt, h1, rfl, h3, h4⟩ := promote_of_fits hf
      rw [h1]
      refine .promoted ⟨h3, fun p s he => ?_⟩ fun n => ?_
      · obtain ⟨hp, hs⟩ := h4 p s he
        exact (namesLogical_decimal (by rw [← he]; exact h3) hp hs).2 p s rfl
      · rw [get?_consumedProps]; simp only [logicalKeys_entries]
    · rw [C17_unrecognised_unchanged k ps hf]; exact .prim hf fun _ => rfl

/-- The types a plain type can stand for: with `?` or as a union. -/
inductive UnannotatedAny : Schema → Prop
  | plain {s} : Unannotated s → UnannotatedAny s
  | optional {s} : Unannotated s → UnannotatedAny (.union [.prim .null, s] true)
  | union (ts) : UnannotatedAny (.union ts false)

omit [CharTables] [FloatTables] [CaseTables] in
theorem isTypeReference_of {s : Schema} (h : IsReference s) : isTypeReference s = true := by
  cases h <;> rfl

omit [CharTables] [FloatTables] [CaseTables] in
theorem applyProps_annotated {s : Schema} (h : UnannotatedAny s) {ps : Props} (hw : ps.Wf)
    (hr : ¬ IsReference s) : Annotated ps.get? s (applyProps s ps) := by
  cases h with
  | plain h =>
    have : applyProps s ps = applyToSchema s ps := by cases h <;> rfl
    rw [this]; exact applyToSchema_annotated h hw hr
  | @optional u h =>
    refine .optional (applyToSchema_annotated h hw ?_)
    rintro (_ | _)
    · exact hr .optional
    · cases h
  | union ts =>
    have : applyProps (.union ts false) ps = .union ts false := by
      unfold applyProps; split <;> simp_all [applyToSchema, Schema.withMergedProps, tryPromote]
    rw [this]; exact .union

omit [CharTables] [FloatTables] [CaseTables] in
theorem walkPrim_means {p : PrimTok} {s : Schema} (h : walkPrim p = .ok s) :
    KeywordMeans p s ∧ Unannotated s := by
  cases p with
  | decimal a sp b =>
    simp only [walkPrim] at h
    split at h
    · cases h
    · rename_i prec hp
      split at h
      · cases h
      · rename_i h0
        split at h
        · cases h
        · rename_i scale hs
          split at h
          · cases h
          · rename_i hle
            injection h with h; subst h
            refine ⟨?_, .logical _⟩
            cases b with
            | none => cases hs; exact .decimal hp (by omega)
            | some t => exact .decimalScale hp hs (by omega) (by omega)
  | _ => injection h with h; subst h; exact ⟨by constructor, by constructor⟩

omit [CharTables] [FloatTables] [CaseTables] in
theorem wrapOptional_means {o : Bool} {sp : Option Span} {s t : Schema}
    (h : wrapOptional o sp s = .ok t)
    (hu : Unannotated s) : Optionally o s t ∧ UnannotatedAny t := by
  unfold wrapOptional at h
  split at h
  · rename_i ho
    subst ho
    split at h
    · cases h
    · rename_i hn
      injection h with h; subst h; exact ⟨.yes hn, .optional hu⟩
  · rename_i ho
    simp only [Bool.not_eq_true] at ho
    subst ho
    injection h with h; subst h; exact ⟨.no, .plain hu⟩

omit [CharTables] [CaseTables] in
theorem props_empty_iff {as : List Annot} {ps : Props} (h : PropsMean [] as ps) :
    (ps.isEmpty = true → ∀ k, annotationValue as k = none) ∧
    (ps.isEmpty = false → ∃ k, annotationValue as k ≠ none) ∧
    ps.get? = annotationValue as := by
  have hs : ∀ k, ps.get? k = annotationValue as k := fun k => by
    rw [h k, if_neg]
    simp
  refine ⟨fun he k => ?_, fun he => ?_, funext hs⟩
  · rw [← hs k]
    cases ps with
    | nil => rfl
    | cons a l => cases he
  · cases ps with
    | nil => cases he
    | cons a l => exact ⟨a.1, by rw [← hs]; exact get?_some_mem (List.mem_cons_self ..)⟩

mutual
theorem walkFullType_means (ns : Option String) : ∀ t : FullType,
    Post (walkFullType ns t) fun s => TypeMeans ns t s
  | .mk annots t _ => by
      simp only [walkFullType]
      refine ((walkAnnots_means bareCtx [] (by simp [Special, bareCtx]) annots).and (walkAnnots_ok bareCtx annots {} ⟨⟨List.nodup_nil, heldEntries_nil⟩, fun _ hx => nomatch hx⟩)).bind
        fun p hp => ?_
      refine (walkPlainType_means ns t).bind fun s hs => ?_
      obtain ⟨h1, h2, h3⟩ := props_empty_iff hp.1.1
      unfold finishFullType
      split
      · rename_i he
        exact .pure (.plain (h1 he) hs.1)
      · rename_i he
        obtain ⟨k, hk⟩ := h2 (by simpa using he)
        split
        · exact .fail
        · rename_i hr
          refine (Post.any _).bind fun _ _ => .pure (.annotated hk hs.1 ?_)
          rw [← h3]
          exact applyProps_annotated hs.2 hp.2.1.1 fun hc => hr (isTypeReference_of hc)
theorem walkPlainType_means (ns : Option String) : ∀ t : PlainType,
    Post (walkPlainType ns t) fun s => PlainMeans ns t s ∧ UnannotatedAny s
  | .array t => by
      simp only [walkPlainType]
      exact (walkFullType_means ns t).bind fun s hs => .pure ⟨.array hs, .plain (.array _)⟩
  | .map t => by
      simp only [walkPlainType]
      exact (walkFullType_means ns t).bind fun s hs => .pure ⟨.map hs, .plain (.map _)⟩
  | .union ts => by
      simp only [walkPlainType]
      refine (walkFullTypes_means ns ts).bind fun ss hss => Post.lift fun s hs => ?_
      unfold checkUnion at hs
      split at hs
      · cases hs
      · split at hs
        · cases hs
        · injection hs with hs; subst hs; exact ⟨.union hss, .union _⟩
  | .prim p o _ => by
      simp only [walkPlainType]
      refine (Post.lift fun s hs => hs).bind fun s hs => Post.lift fun t ht => ?_
      obtain ⟨h1, h2⟩ := walkPrim_means hs
      obtain ⟨h3, h4⟩ := wrapOptional_means ht h2
      exact ⟨.prim h1 h3, h4⟩
  | .named ident span o => by
      simp only [walkPlainType]
      refine Post.lift fun t ht => ?_
      obtain ⟨n, ns', h1, h2⟩ := refTo_means (identifierText ident) span ns
      rw [h2] at ht
      obtain ⟨h3, h4⟩ := wrapOptional_means ht (.ref _ _ _)
      exact ⟨.named h1 h3, h4⟩
theorem walkFullTypes_means (ns : Option String) : ∀ ts : List FullType,
    Post (walkFullTypes ns ts) fun ss => TypesMean ns ts ss
  | [] => by simp only [walkFullTypes]; exact .pure .nil
  | t :: ts => by
      simp only [walkFullTypes]
      refine (walkFullType_means ns t).bind fun s hs => ?_
      exact (walkFullTypes_means ns ts).bind fun ss hss => .pure (.cons hs hss)
end

/-! ## Documentation -/

omit [CharTables] [FloatTables] [CaseTables] in
theorem scanDoc_spec (l : List Token) : match scanDoc l with
    | some (n, text) => (∃ t, l[n]? = some t ∧ t.type = .doc ∧ t.text = text) ∧
        ∀ (j : Nat) t, j < n → l[j]? = some t → t.type = .ws ∨ t.type = .emptyComment
    | none => ∀ (i : Nat) t, l[i]? = some t → t.type = .doc →
        ∃ (j : Nat) (u : Token), j < i ∧ l[j]? = some u ∧ u.type = .other := by
  induction l with
  | nil => intro i t h; simp at h
  | cons t ts ih =>
    have step : (t.type = .ws ∨ t.type = .emptyComment) → scanDoc (t :: ts) =
        (scanDoc ts).map fun r => (r.1 + 1, r.2) := by
      rintro (h | h) <;> simp [scanDoc, h]
    by_cases hw : t.type = .ws ∨ t.type = .emptyComment
    · rw [step hw]
      cases hs : scanDoc ts with
      | none =>
        rw [hs] at ih
        simp only [Option.map_none] at ih ⊢
        intro i u hi hu
        cases i with
        | zero =>
          simp only [List.getElem?_cons_zero, Option.some.injEq] at hi
          subst hi; rw [hu] at hw; simp at hw
        | succ i =>
          obtain ⟨j, v, h1, h2, h3⟩ := ih i u (by simpa using hi) hu
          exact ⟨j + 1, v, by omega, by simpa using h2, h3⟩
      | some r =>
        obtain ⟨n, text⟩ := r
        rw [hs] at ih
        simp only [Option.map_some] at ih ⊢
        refine ⟨by simpa using ih.1, fun j u hj hu => ?_⟩
        cases j with
        | zero =>
          simp only [List.getElem?_cons_zero, Option.some.injEq] at hu
          subst hu; exact hw
        | succ j => exact ih.2 j u (by omega) (by simpa using hu)
    · cases ht : t.type with
      | doc =>
        simp only [scanDoc, ht]
        exact ⟨⟨t, by simp, ht, rfl⟩, fun j _ hj => absurd hj (by omega)⟩
      | other =>
        simp only [scanDoc, ht]
        intro i u hi hu
        cases i with
        | zero =>
          simp only [List.getElem?_cons_zero, Option.some.injEq] at hi
          subst hi; rw [ht] at hu; cases hu
        | succ i => exact ⟨0, t, by omega, by simp, ht⟩
      | ws => exact absurd (Or.inl ht) hw
      | emptyComment => exact absurd (Or.inr ht) hw

omit [CharTables] [FloatTables] [CaseTables] in
theorem findDoc_spec (tokens : List Token) (start : Nat) :
    DocBefore tokens start ((findDoc tokens start).map Prod.fst) ∧
    ∀ i text, findDoc tokens start = some (i, text) → ∃ t, tokens[i]? = some t ∧ t.text = text := by
  have hs := scanDoc_spec (tokens.take start).reverse
  have hlen : (tokens.take start).length = min start tokens.length := by simp
  have hget : ∀ j, j < min start tokens.length → (tokens.take start).reverse[j]? =
      tokens[min start tokens.length - 1 - j]? := by
    intro j hj
    rw [List.getElem?_reverse (by omega), List.getElem?_take, hlen, if_pos (by omega)]
  unfold findDoc
  cases h : scanDoc (tokens.take start).reverse with
  | none =>
    rw [h] at hs
    refine ⟨.absent fun i t hi ht hd => ?_, by simp⟩
    have hil : i < tokens.length := (List.getElem?_eq_some_iff.mp ht).1
    have := hs (min start tokens.length - 1 - i) t (by
      rw [hget _ (by omega)]; rw [← ht]; congr 1; omega) hd
    obtain ⟨j, u, h1, h2, h3⟩ := this
    rw [hget j (by omega)] at h2
    exact ⟨_, u, by omega, by omega, h2, h3⟩
  | some r =>
    obtain ⟨n, text⟩ := r
    rw [h] at hs
    obtain ⟨⟨t, h1, h2, h3⟩, h4⟩ := hs
    have hn : n < min start tokens.length := by
      have := (List.getElem?_eq_some_iff.mp h1).1
      rw [List.length_reverse, hlen] at this; exact this
    rw [hget n hn] at h1
    simp only [Option.map_some]
    refine ⟨.found (by omega) h1 h2 fun j u hj1 hj2 hu => ?_, ?_⟩
    · have hjl : j < tokens.length := (List.getElem?_eq_some_iff.mp hu).1
      refine h4 (min start tokens.length - 1 - j) u (by omega) ?_
      rw [hget _ (by omega), ← hu]; congr 1; omega
    · rintro i text' he
      simp only [Option.some.injEq, Prod.mk.injEq] at he
      exact ⟨t, by rw [← he.1]; exact h1, by rw [← he.2]; exact h3⟩

omit [CharTables] [FloatTables] [CaseTables] in
theorem walkDoc_means (tokens : List Token) (start : Nat) :
    Post (walkDoc tokens start) (Documented tokens start) := by
  have key : Documented tokens start (extractDocComment tokens start).2 := by
    obtain ⟨h1, h2⟩ := findDoc_spec tokens start
    refine ⟨_, h1, ?_⟩
    unfold extractDocComment
    cases h : findDoc tokens start with
    | none => rfl
    | some r =>
      obtain ⟨i, text⟩ := r
      obtain ⟨t, ht, rfl⟩ := h2 i text h
      simp [ht]
  unfold walkDoc
  split
  · rename_i h; rw [h] at key; exact (Post.any _).bind fun _ _ => .pure key
  · rename_i h; rw [h] at key; exact .pure key

/-! ## Fields -/

omit [CharTables] [FloatTables] [CaseTables] in
theorem Matching.append {α β : Type} {R : α → β → Prop} {as as' : List α} {bs bs' : List β}
    (h : Matching R as bs) (h' : Matching R as' bs') : Matching R (as ++ as') (bs ++ bs') := by
  induction h with
  | nil => exact h'
  | cons h1 _ ih => exact .cons h1 ih

omit [CharTables] [FloatTables] [CaseTables] in
theorem Matching.map_left {α γ β : Type} {R : α → β → Prop} {f : γ → α} {as : List γ}
    {bs : List β} (h : Matching (fun a b => R (f a) b) as bs) : Matching R (as.map f) bs := by
  induction h with
  | nil => exact .nil
  | cons h1 _ ih => exact .cons h1 ih

omit [CharTables] [FloatTables] [CaseTables] in
theorem fixOptional_means {ns : Option String} {t : Schema} (h : TypeOut ns t) (d : Option Json) :
    VariableType d t (fixOptional t d) := by
  cases h with
  | optional u hu _ _ =>
    unfold fixOptional
    cases d with
    | none => exact .same (Or.inl rfl)
    | some j =>
      cases j with
      | null => exact .same (Or.inr (Or.inl rfl))
      | _ => exact .swapped (by simp) (by simp)
  | union us _ _ _ =>
    have : fixOptional (.union us false) d = .union us false := by
      unfold fixOptional; split
      · rename_i h; cases h
      · rfl
    rw [this]; exact .same (Or.inr (Or.inr (by simp)))
  | _ => exact .same (Or.inr (Or.inr (by simp)))

omit [CharTables] [CaseTables] in
theorem walkDefault_means (v : Option JVal) : Post (lift (walkDefault v)) (DefaultMeans v) := by
  refine Post.lift fun d hd => ?_
  cases v with
  | none => injection hd with hd; exact hd.symm
  | some v =>
    simp only [walkDefault] at hd
    split at hd
    · rename_i j hj; injection hd with hd; exact ⟨j, hj, hd.symm⟩
    · cases hd

theorem walkVariable_means (tokens : List Token) {ns : Option String} {type : FullType}
    {t : Schema} (ht : TypeOut ns t) (hm : TypeMeans ns type t) (start : Nat)
    (shared : Option String) (hd : Documented tokens start shared) (v : VarDecl) :
    Post (walkVariable tokens t shared v) fun f => FieldMeans tokens ns start type v f := by
  unfold walkVariable
  refine (walkDoc_means tokens v.start).bind fun own ho => ?_
  refine (walkAnnots_means variableCtx ["aliases", "order"] (by simp [Special, variableCtx]) v.annots).bind fun p hp => ?_
  refine (walkDefault_means v.default).bind fun d hdf => ?_
  refine (Post.any _).bind fun _ _ => .pure ?_
  refine ⟨rfl, ⟨_, hm, ?_⟩, hdf, ⟨own, shared, ho, hd, rfl⟩, hp.2.2.2 rfl, hp.2.2.1 rfl, hp.1⟩
  exact fixOptional_means ht d

theorem walkVariables_means (tokens : List Token) {ns : Option String} {type : FullType}
    {t : Schema} (ht : TypeOut ns t) (hm : TypeMeans ns type t) (start : Nat)
    (shared : Option String) (hd : Documented tokens start shared) : ∀ vs : List VarDecl,
    Post (walkVariables tokens t shared vs) fun fs =>
      Matching (fun v f => FieldMeans tokens ns start type v f) vs fs
  | [] => .pure .nil
  | v :: vs => by
      simp only [walkVariables]
      refine (walkVariable_means tokens ht hm start shared hd v).bind fun f hf => ?_
      exact (walkVariables_means tokens ht hm start shared hd vs).bind fun fs hfs =>
        .pure (.cons hf hfs)

theorem walkField_means (tokens : List Token) (ns : Option String) (d : FieldDecl) :
    Post (walkField tokens ns d) fun fs =>
      Matching (fun v f => FieldMeans tokens ns d.start d.type v f) d.vars fs := by
  unfold walkField
  refine (walkDoc_means tokens d.start).bind fun doc hd => ?_
  refine ((walkFullType_out ns d.type).and (walkFullType_means ns d.type)).bind fun t ht => ?_
  exact walkVariables_means tokens ht.1 ht.2 d.start doc hd d.vars

theorem walkFields_means (tokens : List Token) (ns : Option String) (record : String) :
    ∀ (ds : List FieldDecl) (seen : List String),
    Post (walkFields tokens ns record seen ds) fun fs =>
      Matching (fun x f => FieldMeans tokens ns x.1.start x.1.type x.2 f)
        (ds.flatMap fun fd => fd.vars.map fun v => (fd, v)) fs
  | [], _ => .pure .nil
  | d :: ds, seen => by
      simp only [walkFields]
      refine (walkField_means tokens ns d).bind fun fs hfs => ?_
      refine (Post.any _).bind fun seen' _ => ?_
      refine (walkFields_means tokens ns record ds seen').bind fun rest hr => .pure ?_
      rw [List.flatMap_cons]
      exact Matching.append (Matching.map_left hfs) hr

/-! ## Declarations -/

theorem recordIn_means (tokens : List Token) (ns : Option String) (d : RecordDecl) :
    Post (recordIn tokens ns d) (DeclMeans tokens ns (.record d)) := by
  unfold recordIn
  refine (walkDoc_means tokens d.start).bind fun doc hd => ?_
  refine (walkAnnots_means namedCtx ["namespace", "aliases"] (by simp [Special, namedCtx]) d.annots).bind fun p hp => ?_
  refine (Post.any _).bind fun _ _ => ?_
  refine (walkFields_means tokens _ _ d.fields []).bind fun fs hfs => .pure ?_
  rw [hp.2.2.1 rfl]
  refine .record ?_ hd hfs hp.1
  rw [hp.2.1 rfl]
  exact declaredName _ _ _

theorem walkEnum_means (tokens : List Token) (ns : Option String) (d : EnumDecl) :
    Post (walkEnum tokens ns d) (DeclMeans tokens ns (.enum d)) := by
  unfold walkEnum
  refine (walkDoc_means tokens d.start).bind fun doc hd => ?_
  refine (walkAnnots_means enumCtx ["namespace", "aliases"] (by simp [Special, enumCtx]) d.annots).bind fun p hp => ?_
  refine (Post.any _).bind fun _ _ => ?_
  refine (checkSymbols_ok d.symbols []).bind fun sy hs => ?_
  refine (checkEnumDefault_ok sy d.default).bind fun df hdf => .pure ?_
  rw [hp.2.2.1 rfl, hdf.1, hs.1, List.nil_append]
  refine .enum ?_ hd hp.1
  rw [hp.2.1 rfl]
  exact declaredName _ _ _

theorem walkFixed_means (tokens : List Token) (ns : Option String) (d : FixedDecl) :
    Post (walkFixed tokens ns d) (DeclMeans tokens ns (.fixed d)) := by
  unfold walkFixed
  refine (walkDoc_means tokens d.start).bind fun doc hd => ?_
  refine (walkAnnots_means namedCtx ["namespace", "aliases"] (by simp [Special, namedCtx]) d.annots).bind fun p hp => ?_
  refine (Post.any _).bind fun _ _ => ?_
  split
  · exact .fail
  · rename_i n h
    refine .pure ?_
    simp only [tryPromote]
    rw [hp.2.2.1 rfl]
    refine .fixed ?_ hd h hp.1
    rw [hp.2.1 rfl]
    exact declaredName _ _ _

theorem namedIn_means (tokens : List Token) (ns : Option String) (d : NamedDecl) :
    Post (namedIn tokens ns d) (DeclMeans tokens ns d) := by
  cases d with
  | record d => exact recordIn_means tokens ns d
  | enum d => exact walkEnum_means tokens ns d
  | fixed d => exact walkFixed_means tokens ns d

/-! ## Messages -/

theorem walkParams_means (tokens : List Token) (ns : Option String) (message : String) :
    ∀ (ps : List Param) (seen : List String),
    Post (walkParams tokens ns message seen ps) fun fs =>
      Matching (fun p f => FieldMeans tokens ns p.start p.type p.var f) ps fs
  | [], _ => .pure .nil
  | p :: ps, seen => by
      simp only [walkParams]
      refine (walkDoc_means tokens p.start).bind fun doc hd => ?_
      refine ((walkFullType_out ns p.type).and (walkFullType_means ns p.type)).bind fun t ht => ?_
      refine (walkVariable_means tokens ht.1 ht.2 p.start doc hd p.var).bind fun f hf => ?_
      split
      · exact .fail
      · exact (walkParams_means tokens ns message ps _).bind fun fs hfs => .pure (.cons hf hfs)

omit [CharTables] [FloatTables] [CaseTables] in
theorem errors_means (ns : Option String) (es : List (String × Option Span)) :
    Matching (fun (e : String × Option Span) (s : Schema) => ∃ name ns',
        ReferenceName ns (identifierText e.1) name ns' ∧ s = .ref name ns' [] e.2) es
      (es.map fun e => refTo (identifierText e.1) e.2 ns) := by
  induction es with
  | nil => exact .nil
  | cons e es ih => exact .cons (refTo_means _ _ _) ih

theorem walkMessage_means (tokens : List Token) (ns : Option String) (d : MessageDecl) :
    Post (walkMessage tokens ns d) fun nm =>
      nm.1 = identifierText d.ident ∧ MessageMeans tokens ns d nm.2 := by
  unfold walkMessage
  refine (walkDoc_means tokens d.start).bind fun doc hd => ?_
  refine (walkAnnots_means messageCtx [] (by simp [Special, messageCtx]) d.annots).bind fun p hp => ?_
  refine Post.bind (P := fun resp => match d.result with
    | none => resp = .prim .null
    | some t => PlainMeans ns t resp) ?_ fun resp hr => ?_
  · unfold walkResult
    cases d.result with
    | none => exact .pure rfl
    | some t => exact (walkPlainType_means ns t).mono fun _ h => h.1
  refine Post.failIf.bind fun _ ha => ?_
  refine (walkParams_means tokens ns _ d.params []).bind fun req hq => ?_
  refine Post.failIf.bind fun _ ho => .pure ⟨rfl, hd, hq, hr, ?_, ?_, rfl, hp.1⟩
  · rintro ⟨k, hk⟩ hc
    rw [isTypeReference_of hc] at ha
    cases hps : p.props with
    | nil => rw [hps] at hk; exact hk rfl
    | cons a l => rw [hps] at ha; simp at ha
  cases h : d.errors with
  | nil => simp [messageErrors]
  | cons e es =>
    simp only [messageErrors]
    exact ⟨by simp, errors_means ns (e :: es)⟩

/-- The messages of a map that started as `ms`, after the given declarations. -/
def MessagesMean (tokens : List Token) (ns : Option String) (ds : List MessageDecl)
    (ms out : List (String × Message)) (name : String) : Prop :=
  match lastMessage name ds with
  | none => ∀ m, (name, m) ∈ out ↔ (name, m) ∈ ms
  | some md => ∃ m, MessageMeans tokens ns md m ∧ ∀ m', (name, m') ∈ out ↔ m' = m

omit [CharTables] [FloatTables] [CaseTables] in
theorem mem_insertMessage_iff (ms : List (String × Message)) (n : String) (m : Message)
    (k : String) (x : Message) : (k, x) ∈ insertMessage ms n m ↔
      if k = n then x = m else (k, x) ∈ ms := by
  unfold insertMessage
  rw [List.mem_append, List.mem_filter]
  by_cases h : k = n <;> simp [h]

/-- The messages of a protocol body. -/
def bodyMessages (items : List BodyItem) : List MessageDecl :=
  items.filterMap fun i => match i with
    | .message m => some m
    | _ => none

/-- The other declarations of a protocol body. -/
def bodyDecls (items : List BodyItem) : List FileItem :=
  items.filterMap fun i => match i with
    | .import_ i => some (.import_ i)
    | .named d s => some (.named d s)
    | .message _ => none

omit [CharTables] [FloatTables] [CaseTables] in
theorem spans_means (d : NamedDecl) : d.spans = variableSpans d := by
  cases d <;> rfl

theorem bodyIn_means (tokens : List Token) (ns : Option String) :
    ∀ (items : List BodyItem) (ms : List (String × Message)),
    Post (bodyIn tokens ns ms items) fun r =>
      Matching (ItemMeans tokens ns) (bodyDecls items) r.2 ∧
      ∀ name, MessagesMean tokens ns (bodyMessages items) ms r.1 name
  | [], ms => .pure ⟨.nil, fun _ _ => Iff.rfl⟩
  | .import_ i :: items, ms => by
      simp only [bodyIn]
      exact (bodyIn_means tokens ns items ms).bind fun r hr => .pure ⟨.cons .import_ hr.1, hr.2⟩
  | .named d span :: items, ms => by
      simp only [bodyIn]
      refine (namedIn_means tokens ns d).bind fun s hs => ?_
      exact (bodyIn_means tokens ns items ms).bind fun r hr =>
        .pure ⟨.cons (by rw [spans_means]; exact .type hs) hr.1, hr.2⟩
  | .message m :: items, ms => by
      simp only [bodyIn]
      refine (walkMessage_means tokens ns m).bind fun nm hm => ?_
      refine (bodyIn_means tokens ns items _).mono fun r hr => ⟨hr.1, fun name => ?_⟩
      have h := hr.2 name
      change MessagesMean tokens ns (m :: bodyMessages items) ms r.1 name
      unfold MessagesMean at h ⊢
      simp only [lastMessage]
      cases hl : lastMessage name (bodyMessages items) with
      | some md => rw [hl] at h; exact h
      | none =>
        rw [hl] at h
        simp only at h ⊢
        by_cases hn : identifierText m.ident = name
        · rw [if_pos hn]
          refine ⟨nm.2, hm.2, fun m' => ?_⟩
          rw [h m', mem_insertMessage_iff, if_pos (by rw [hm.1, hn])]
        · rw [if_neg hn]
          intro m'
          rw [h m', mem_insertMessage_iff, if_neg (by rw [hm.1]; exact fun e => hn e.symm)]

theorem itemsIn_means (tokens : List Token) (ns : Option String) : ∀ items : List FileItem,
    Post (itemsIn tokens ns items) fun r => Matching (ItemMeans tokens ns) items r.2
  | [] => .pure .nil
  | .import_ i :: items => by
      simp only [itemsIn]
      exact (itemsIn_means tokens ns items).bind fun r hr => .pure (.cons .import_ hr)
  | .named d span :: items => by
      simp only [itemsIn]
      refine (namedIn_means tokens ns d).bind fun s hs => ?_
      exact (itemsIn_means tokens ns items).bind fun r hr =>
        .pure (.cons (by rw [spans_means]; exact .type hs) hr)

/-! ## Files -/

/-- `FileMeans` for the outcome of the walk. -/
def WalkMeans (tokens : List Token) (ast : FileAst) (r : IdlFile × List DeclItem) : Prop :=
  ∃ ns, FileNamespace ast ns ∧ ∀ orphans warnings,
    FileMeans tokens ast ns ⟨r.1, r.2, orphans, warnings⟩

theorem fileIn_means (tokens : List Token) (ast : FileAst) :
    Post (fileIn tokens ast) (WalkMeans tokens ast) := by
  cases ast with
  | protocol d =>
    simp only [fileIn, protocolIn]
    refine Post.bind (P := fun r => WalkMeans tokens (.protocol d) (.protocol r.1, r.2)) ?_
      fun r hr => .pure hr
    refine (walkDoc_means tokens d.start).bind fun doc hd => ?_
    refine (walkAnnots_means protocolCtx ["namespace"] (by simp [Special, protocolCtx]) d.annots).bind fun p hp => ?_
    refine (Post.any _).bind fun _ _ => ?_
    have hn := declaredName none p.ns (identifierText d.ident)
    rw [Option.or_none, hp.2.1 rfl] at hn
    rw [hp.2.1 rfl]
    refine (bodyIn_means tokens _ d.body []).bind fun r hr => .pure ⟨_, ⟨_, hn⟩, fun o w => ?_⟩
    refine ⟨hr.1, ?_, by simp, by simp⟩
    rintro d' ⟨⟩
    refine ⟨_, rfl, hn, rfl, hd, hp.1, fun name => ?_⟩
    have h := hr.2 name
    unfold MessagesMean at h
    change match lastMessage name (bodyMessages d.body) with
      | none => _
      | some md => _
    cases hl : lastMessage name (bodyMessages d.body) with
    | none => rw [hl] at h; intro m; rw [h m]; simp
    | some md =>
      rw [hl] at h
      obtain ⟨m, h1, h2⟩ := h
      exact ⟨m, (h2 m).mpr rfl, h1, fun m' hm' => (h2 m').mp hm'⟩
  | schema n main body =>
    simp only [fileIn]
    refine ((itemsIn_out tokens _ body).and (itemsIn_means tokens _ body)).bind fun r hr => ?_
    cases main with
    | none =>
      refine .pure ⟨_, rfl, fun o w => ⟨hr.2, by simp, by simp, ?_⟩⟩
      rintro n' b ⟨⟩
      exact ⟨_, rfl, hr.1.1⟩
    | some t =>
      refine (walkFullType_means _ t).bind fun s hs => .pure ⟨_, rfl, fun o w => ⟨hr.2, by simp, ?_,
        by simp⟩⟩
      rintro n' t' b ⟨⟩
      exact ⟨s, rfl, hs⟩

/-- What `readFile` returns is what the file means. -/
theorem readFile_means {tokens : List Token} {ast : FileAst} {r : ReadResult}
    (h : readFile tokens ast = .ok r) :
    ∃ ns, FileNamespace ast ns ∧ FileMeans tokens ast ns r := by
  unfold readFile at h
  split at h
  · cases h
  · rename_i r' log hw
    injection h with h; subst h
    rw [walkFile_eq] at hw
    obtain ⟨ns, h1, h2⟩ := fileIn_means tokens ast _ _ _ hw
    exact ⟨ns, h1, h2 _ _⟩

end

end Avdl
