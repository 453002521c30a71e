import Verif.Spec.LogicalType
import Verif.Props.Annotations
/-!
# C17: logical type annotations
-/

namespace Avdl.Props
open Spec

/-! ### Numbers -/

theorem asJavaInt_iff {v : Option Json} {n : Nat} :
    asJavaInt v = some n ↔ ∃ j, v = some j ∧ IsNat n j ∧ n ≤ maxInt32 := by
  have key : ∀ j, n ≤ maxInt32 → (jsonValueAsU32 j = some n ↔ IsNat n j) := by
    intro j hn
    have hlt : n < 2 ^ 32 := by unfold maxInt32 at hn; omega
    unfold jsonValueAsU32 IsNat
    split
    · rename_i i
      split
      · rename_i h
        simp only [Option.some.injEq]
        omega
      · rename_i h
        simp only [reduceCtorEq, false_iff]
        intro h'; apply h; omega
    · rename_i neg m e
      by_cases hm : m = 0
      · subst hm
        simp only [if_true, Option.some.injEq, Nat.zero_mul, true_and]
        cases neg with
        | true => simp [eq_comm]
        | false =>
          simp only [Bool.false_eq_true, if_false]
          constructor
          · rintro rfl
            by_cases he : 0 ≤ e
            · exact Or.inl ⟨he, rfl⟩
            · exact Or.inr ⟨by omega, by simp⟩
          · rintro (⟨_, h⟩ | ⟨_, h⟩)
            · exact h
            · rcases Nat.mul_eq_zero.mp h.symm with h | h
              · exact h.symm
              · exact absurd h (Nat.ne_of_gt (Nat.two_pow_pos _))
      · rw [if_neg hm]
        cases neg with
        | true => simp [hm]
        | false =>
          simp only [Bool.false_eq_true, if_false]
          by_cases he : 0 ≤ e
          · rw [if_pos he]
            by_cases h32 : e ≤ 32
            · simp only [h32, if_true]
              split
              · simp only [Option.some.injEq]
                constructor
                · intro h; exact Or.inl ⟨he, h⟩
                · rintro (⟨_, h⟩ | ⟨h, _⟩)
                  · exact h
                  · omega
              · rename_i hb
                simp only [reduceCtorEq, false_iff]
                rintro (⟨_, h⟩ | ⟨h, _⟩)
                · omega
                · omega
            · simp only [h32, if_false, reduceCtorEq, false_iff]
              rintro (⟨_, h⟩ | ⟨h, _⟩)
              · have h1 : 2 ^ 32 ≤ 2 ^ e.toNat := Nat.pow_le_pow_right (by omega) (by omega)
                have h2 : 1 * 2 ^ e.toNat ≤ m * 2 ^ e.toNat := Nat.mul_le_mul_right _ (by omega)
                omega
              · omega
          · rw [if_neg he]
            have hpos := Nat.two_pow_pos (-e).toNat
            by_cases hd : m % 2 ^ (-e).toNat = 0
            · simp only [hd, if_true]
              have hm' : m = (m / 2 ^ (-e).toNat) * 2 ^ (-e).toNat := by
                have := Nat.div_add_mod m (2 ^ (-e).toNat)
                rw [hd, Nat.add_zero, Nat.mul_comm] at this
                exact this.symm
              split
              · simp only [Option.some.injEq]
                constructor
                · intro h; rw [h] at hm'; exact Or.inr ⟨by omega, hm'⟩
                · rintro (⟨h, _⟩ | ⟨_, h⟩)
                  · exact absurd h he
                  · rw [h]; exact Nat.mul_div_cancel _ hpos
              · rename_i hb
                simp only [reduceCtorEq, false_iff]
                rintro (⟨h, _⟩ | ⟨_, h⟩)
                · exact absurd h he
                · rw [h, Nat.mul_div_cancel _ hpos] at hb; omega
            · simp only [hd, if_false, reduceCtorEq, false_iff]
              rintro (⟨h, _⟩ | ⟨_, h⟩)
              · exact absurd h he
              · apply hd; rw [h]; exact Nat.mul_mod_left ..
    · simp only [reduceCtorEq]
  unfold asJavaInt
  cases v with
  | none => simp
  | some j =>
    simp only [Option.bind_some, Option.some.injEq, exists_eq_left']
    constructor
    · intro h
      split at h
      · rename_i m hm
        split at h
        · rename_i hle
          simp only [Option.some.injEq] at h
          subst h
          have hle' : m ≤ maxInt32 := by unfold maxInt32; omega
          exact ⟨(key j hle').mp hm, hle'⟩
        · cases h
      · cases h
    · rintro ⟨h1, h2⟩
      rw [(key j h2).mpr h1]
      have : n ≤ 2 ^ 31 - 1 := by unfold maxInt32 at h2; omega
      simp [this]

theorem parseLogicalType_some {n : String} {p s : Option Nat} {lt : LogicalType}
    (h : parseLogicalType n p s = some lt) :
    lt.name = n ∧ (n, lt.base) ∈ logicalBases ∧
      (n = "decimal" → ∃ q, p = some q ∧ lt = .decimal q (s.getD 0)) := by
  unfold parseLogicalType at h
  repeat' split at h
  all_goals first
    | (cases h; subst_vars; refine ⟨rfl, by decide, fun hc => absurd hc (by decide)⟩)
    | (cases h)
  subst_vars
  exact ⟨rfl, by simp [logicalBases, LogicalType.base], fun _ => ⟨_, rfl, rfl⟩⟩

theorem parseLogicalType_of_base {n : String} {k : Prim} {p s : Option Nat}
    (hn : (n, k) ∈ logicalBases) (hd : n = "decimal" → p ≠ none) :
    ∃ lt, parseLogicalType n p s = some lt ∧ lt.base = k := by
  simp only [logicalBases, List.mem_cons, List.not_mem_nil, or_false, Prod.mk.injEq] at hn
  rcases hn with ⟨rfl, rfl⟩ | ⟨rfl, rfl⟩ | ⟨rfl, rfl⟩ | ⟨rfl, rfl⟩ | ⟨rfl, rfl⟩ | ⟨rfl, rfl⟩ |
    ⟨rfl, rfl⟩ | ⟨rfl, rfl⟩ | ⟨rfl, rfl⟩
  case inr.inr.inr.inr.inr.inr.inr.inr =>
    cases p with
    | none => exact absurd rfl (hd rfl)
    | some q => exact ⟨.decimal q (s.getD 0), rfl, rfl⟩
  all_goals exact ⟨_, rfl, rfl⟩

/-- A logical type name has one base type. -/
theorem logicalBases_unique {n : String} {k k' : Prim} (h : (n, k) ∈ logicalBases)
    (h' : (n, k') ∈ logicalBases) : k = k' := by
  have : ∀ a ∈ logicalBases, ∀ b ∈ logicalBases, a.1 = b.1 → a.2 = b.2 := by decide
  exact this _ h _ h' rfl

/-! ### Recognition -/

/-- **C17, recognition.** Annotations turn a primitive into a logical type exactly when they name
one of the table that has this primitive as base (and, for decimals, have a precision in range). -/
theorem C17_recognised_iff (k : Prim) (ps : Props) :
    (∃ lt qs, tryPromote (.annotated k ps) = .logical lt qs) ↔ Fits k ps.get? := by
  simp only [tryPromote]
  constructor
  · rintro ⟨lt, qs, h⟩
    split at h
    · rename_i n hn
      split at h
      · cases h
      · rename_i lt' hp
        obtain ⟨h1, h2, h3⟩ := parseLogicalType_some hp
        split at h
        · cases h
        · rename_i hb
          simp only [ne_eq, Decidable.not_not] at hb
          rw [hb] at h2
          refine ⟨n, hn, h2, fun hd => ?_⟩
          obtain ⟨q, hq, -⟩ := h3 hd
          obtain ⟨j, hj, hi, hm⟩ := asJavaInt_iff.mp hq
          exact ⟨j, q, hj, hi, hm⟩
    · cases h
  · rintro ⟨n, hn, hb, hd⟩
    have hp : n = "decimal" → asJavaInt (ps.get? "precision") ≠ none := by
      intro he hc
      obtain ⟨j, p, hj, hi, hm⟩ := hd he
      rw [asJavaInt_iff.mpr ⟨j, hj, hi, hm⟩] at hc
      cases hc
    obtain ⟨lt, hl, hk⟩ := parseLogicalType_of_base (s := asJavaInt (ps.get? "scale")) hb hp
    simp only [hn, hl, hk]
    exact ⟨lt, _, if_neg (by simp)⟩

/-- Otherwise they stay what they are. -/
theorem C17_unrecognised_unchanged (k : Prim) (ps : Props) (h : ¬ Fits k ps.get?) :
    tryPromote (.annotated k ps) = .annotated k ps := by
  have hn := fun hc => h ((C17_recognised_iff k ps).mp hc)
  simp only [tryPromote] at hn ⊢
  split
  · split
    · rfl
    · split
      · rfl
      · rename_i h1 _ _ h2 h3
        exact absurd ⟨_, _, by simp only [h1, h2, if_neg h3]; rfl⟩ hn
  · rfl

theorem get?_consumedProps (lt : LogicalType) (ps : Props) (key : String) :
    (consumedProps lt ps).get? key =
      if key ∈ (logicalEntries lt).map Prod.fst ∧ key ≠ "type" then none else ps.get? key := by
  cases lt <;> simp only [consumedProps, get?_erase, logicalEntries, List.map_cons,
    List.map_nil, List.append_nil, List.cons_append, List.nil_append, List.mem_cons,
    List.not_mem_nil, or_false] <;> grind

theorem consumedProps_wf {ps : Props} (lt : LogicalType) (h : ps.Wf) : (consumedProps lt ps).Wf := by
  cases lt with
  | decimal p s => exact ((h.erase _).erase _).erase _
  | _ => exact h.erase _

theorem get?_some_mem {p : List (String × Json)} {kv : String × Json} (h : kv ∈ p) :
    JMap.get? p kv.1 ≠ none := fun hc => get?_none_iff.mp hc (List.mem_map_of_mem h)

theorem promote_of_fits {k : Prim} {ps : Props} (h : Fits k ps.get?) :
    ∃ lt, tryPromote (.annotated k ps) = .logical lt (consumedProps lt ps) ∧ lt.base = k ∧
      ps.get? "logicalType" = some (.str lt.name) ∧
      ∀ p s, lt = .decimal p s → asJavaInt (ps.get? "precision") = some p ∧
        s = (asJavaInt (ps.get? "scale")).getD 0 := by
  obtain ⟨lt, qs, hp⟩ := (C17_recognised_iff k ps).mpr h
  simp only [tryPromote] at hp ⊢
  split at hp
  · rename_i n hn
    split at hp
    · cases hp
    · rename_i lt' hl
      split at hp
      · cases hp
      · rename_i hb
        obtain ⟨h1, -, h3⟩ := parseLogicalType_some hl
        refine ⟨lt', if_neg hb, by simpa using hb, by rw [h1, hn], ?_⟩
        rintro p s rfl
        obtain ⟨q, hq, he⟩ := h3 h1.symm
        injection he with e1 e2
        exact ⟨by rw [hq, e1], e2⟩
  · cases hp

/-- **C17, meaning (partial).** Recognising a logical type changes nothing in the output, except
that a decimal without a scale gets the scale 0.  Restriction: precision and scale are plain
integers, the scale in range; see `C17_bad_scale_lost`. -/
theorem C17_output_unchanged_partial (k : Prim) (ps : Props) (hw : ps.Wf)
    (ht : "type" ∉ ps.map Prod.fst) (hc : CleanDecimal ps.get?) (lk : Lookup) (fuel : Nat)
    (encl : Option String) (K : Known) :
    ∃ (o o' : JMap),
      schemaToJson lk (fuel + 1) (.annotated k ps) encl K = some (.obj o, K) ∧
      schemaToJson lk (fuel + 1) (tryPromote (.annotated k ps)) encl K = some (.obj o', K) ∧
      ∀ key, o'.get? key = o.get? key ∨
        (key = "scale" ∧ ps.get? "logicalType" = some (.str "decimal") ∧
          ps.get? "scale" = none ∧ o'.get? key = some (.num (.int 0))) := by
  have ho : ∀ key, (JMap.insertAll (JMap.insert "type" (.str k.asStr) []) ps).get? key =
      if key = "type" then some (.str k.asStr) else ps.get? key := by
    intro key
    rw [JMap.get?_insertAll _ _ hw]
    by_cases hk : key = "type"
    · subst hk
      rw [if_pos rfl, get?_none_iff.mpr ht]; simp [JMap.get?_insert]
    · rw [if_neg hk]
      unfold Props.get?
      cases JMap.get? ps key <;> simp [JMap.get?_insert, hk, JMap.get?]
  by_cases hf : Fits k ps.get?
  · obtain ⟨lt, hp, hb, hn, hd⟩ := promote_of_fits hf
    refine ⟨_, _, rfl, by rw [hp]; rfl, fun key => ?_⟩
    have hs := logicalObj_shows (lt := lt) (consumedProps_wf lt hw) (ps := consumedProps lt ps) (by
      intro kv hkv hm
      have h1 := get?_some_mem hkv
      have h2 := get?_consumedProps lt ps kv.1
      by_cases hty : kv.1 = "type"
      · rw [if_neg (fun h => h.2 hty), hty] at h2
        unfold Props.get? at h2
        rw [get?_none_iff.mpr ht] at h2
        rw [hty] at h1
        exact h1 h2
      · rw [if_pos ⟨hm, hty⟩] at h2
        exact h1 h2)
    rw [ho]
    by_cases hm : key ∈ (logicalEntries lt).map Prod.fst
    · obtain ⟨kv, hkv, rfl⟩ := List.mem_map.mp hm
      rw [hs.structural kv hkv]
      simp only [logicalEntries, List.cons_append, List.nil_append, List.mem_cons] at hkv
      rcases hkv with rfl | rfl | hkv
      · left; simp [hb]
      · left; simp [hn]
      · cases lt with
        | decimal p s =>
          obtain ⟨h1, h2⟩ := hd p s rfl
          simp only [List.mem_cons, List.not_mem_nil, or_false] at hkv
          rcases hkv with rfl | rfl
          · left
            obtain ⟨j, hj, hi, -⟩ := asJavaInt_iff.mp h1
            obtain ⟨i, rfl⟩ := hc.1 j hj
            simp only [IsNat] at hi
            simp [hj, hi]
          · cases hsc : ps.get? "scale" with
            | none =>
              right
              rw [hsc] at h2
              exact ⟨rfl, hn, rfl, by rw [h2]; rfl⟩
            | some j =>
              left
              obtain ⟨n, rfl, hle⟩ := hc.2 j hsc
              rw [hsc, asJavaInt_iff.mpr ⟨_, rfl, (by simp only [IsNat]), hle⟩] at h2
              simp [h2]
        | _ => simp at hkv
    · left
      have hty : key ≠ "type" := by rintro rfl; exact hm (by simp [logicalEntries])
      rw [if_neg hty]
      have hcp := get?_consumedProps lt ps key
      rw [if_neg (fun h => hm h.1)] at hcp
      rw [← hcp]
      unfold Props.get?
      cases hg : JMap.get? (consumedProps lt ps) key with
      | none => exact hs.nothingElse key hm (get?_none_iff.mp hg)
      | some v => exact hs.custom (key, v) (JMap.mem_of_get? hg)
  · refine ⟨_, _, rfl, ?_, fun key => Or.inl rfl⟩
    rw [C17_unrecognised_unchanged k ps hf]; rfl

/-! ### From the source -/

section
variable [CharTables] [FloatTables] [CaseTables]

theorem bareAnnots_get {as : List Annot} {l l' : Log} {p : SchemaProps}
    (h : walkAnnots bareCtx {} as l = .ok (p, l')) (k : String) :
    p.props.get? k = annotationValue as k := by
  have := (C16_annotations_collected bareCtx as l l' p h).2.2.2 k (by simp [Special, bareCtx])
  unfold annotationValue
  cases hl : lastAnnotation k as with
  | none => rw [hl] at this; exact this
  | some v =>
    rw [hl] at this
    obtain ⟨j, hj, hk⟩ := this
    rw [hk]; simp [hj, Except.toOption]

omit [CharTables] [FloatTables] [CaseTables] in
theorem lastAnnotation_ne_none {as : List Annot} (h : as ≠ []) :
    ∃ k v, lastAnnotation k as = some v := by
  cases as with
  | nil => exact absurd rfl h
  | cons a as =>
    refine ⟨identifierText a.name, ?_⟩
    simp only [lastAnnotation]
    split
    · exact ⟨_, rfl⟩
    · exact ⟨a.value, by simp⟩

/-- **C17, from the source (partial).** A primitive type written with annotations is output as an
object with that type and exactly those annotations, the last of each name winning, whether or not
they name a logical type; only a recognised decimal without scale gets the scale 0. -/
theorem C17_annotated_primitive_partial (ns : Option String) (as : List Annot) (p : Prim)
    (optional : Bool) (sp sp' : Option Span) (l l' : Log) (s : Schema) (hne : as ≠ [])
    (h : walkFullType ns (.mk as (.prim (.prim p) optional sp) sp') l = .ok (s, l'))
    (hc : CleanDecimal (annotationValue as)) (lk : Lookup) (fuel : Nat) (encl : Option String)
    (K : Known) :
    ∃ (t : Schema) (o : JMap), s = (if optional then .union [.prim .null, t] true else t) ∧
      schemaToJson lk (fuel + 1) t encl K = some (.obj o, K) ∧
      o.get? "type" = some (.str p.asStr) ∧
      ∀ key, key ≠ "type" → o.get? key = annotationValue as key ∨
        (key = "scale" ∧ annotationValue as "logicalType" = some (.str "decimal") ∧
          annotationValue as "scale" = none ∧ o.get? key = some (.num (.int 0))) := by
  simp only [walkFullType, W.bind] at h
  cases hA : walkAnnots bareCtx {} as l with
  | error e => rw [hA] at h; cases h
  | ok r =>
    obtain ⟨q, l1⟩ := r
    rw [hA] at h
    have hget := bareAnnots_get hA
    have hok := walkAnnots_ok bareCtx as {} (annotOk_nil _) l q l1 hA
    have hempty : q.props.isEmpty = false := by
      obtain ⟨k, v, hv⟩ := lastAnnotation_ne_none hne
      have h1 := (C16_annotations_collected bareCtx as l l1 q hA).2.2.2 k
        (by simp [Special, bareCtx])
      rw [hv] at h1
      obtain ⟨j, -, hj⟩ := h1
      cases hq : q.props with
      | nil => rw [hq] at hj; cases hj
      | cons a b => rfl
    have hvals : q.props.get? = annotationValue as := funext hget
    have ht : "type" ∉ q.props.map Prod.fst := avoids_keys hok.2 (by decide)
    obtain ⟨o, o', h1, h2, h3⟩ := C17_output_unchanged_partial p q.props hok.1.1 ht
      (by rw [hvals]; exact hc) lk fuel encl K
    have hs : s = if optional then .union [.prim .null, tryPromote (.annotated p q.props)] true
        else tryPromote (.annotated p q.props) := by
      cases optional with
      | false =>
        simp [walkPlainType, W.bind, W.lift, walkPrim, wrapOptional, finishFullType, hempty,
          isTypeReference, isNonNullableUnion, W.pure, applyProps, applyToSchema,
          Schema.withMergedProps] at h
        simp [h.1]
      | true =>
        cases p <;> simp [walkPlainType, W.bind, W.lift, walkPrim, wrapOptional, finishFullType,
          hempty, isTypeReference, isNonNullableUnion, W.pure, applyProps, applyToSchema,
          Schema.withMergedProps, Schema.isNull] at h <;> simp [h.1]
    have ho : ∀ key, o.get? key = if key = "type" then some (.str p.asStr) else q.props.get? key := by
      simp only [schemaToJson, Option.some.injEq, Prod.mk.injEq, Json.obj.injEq, and_true] at h1
      intro key
      rw [← h1, JMap.get?_insertAll _ _ hok.1.1]
      by_cases hk : key = "type"
      · subst hk
        rw [if_pos rfl, get?_none_iff.mpr ht]; simp [JMap.get?_insert]
      · rw [if_neg hk]
        unfold Props.get?
        cases JMap.get? q.props key <;> simp [JMap.get?_insert, hk, JMap.get?]
    refine ⟨_, o', hs, h2, ?_, fun key hk => ?_⟩
    · rcases h3 "type" with h | h
      · rw [h, ho, if_pos rfl]
      · exact absurd h.1 (by decide)
    · rcases h3 key with h | h
      · left; rw [h, ho, if_neg hk, hget]
      · right; rw [← hvals]; exact h

end

/-! ### Examples and witnesses -/

attribute [local instance] asciiTables exFloats exCases

/-- A decimal with an extra annotation and no scale. -/
def exDecimal : List Annot :=
  [⟨"logicalType", .str "\"decimal\"", none⟩, ⟨"precision", .int "9" none, none⟩, ⟨"x", .true, none⟩]

example : CleanDecimal (annotationValue exDecimal) ∧ exDecimal ≠ [] ∧
    walkFullType none (.mk exDecimal (.prim (.prim .bytes) true none) none) ⟨[], []⟩ =
      .ok (.union [.prim .null, .logical (.decimal 9 0) [("x", .bool true)]] true, ⟨[], []⟩) ∧
    Fits .bytes (annotationValue exDecimal) ∧ ¬ Fits .string (annotationValue exDecimal) := by
  refine ⟨⟨?_, ?_⟩, by simp [exDecimal], rfl, ⟨"decimal", rfl, by decide, fun _ =>
    ⟨_, 9, rfl, rfl, by decide⟩⟩, ?_⟩
  · intro j hj
    have : annotationValue exDecimal "precision" = some (.num (.int 9)) := rfl
    rw [this] at hj; cases hj; exact ⟨9, rfl⟩
  · intro j hj
    have : annotationValue exDecimal "scale" = none := rfl
    rw [this] at hj; cases hj
  · rintro ⟨n, hn, hb, -⟩
    have : annotationValue exDecimal "logicalType" = some (.str "decimal") := rfl
    rw [this] at hn; cases hn; revert hb; decide

/-- The restriction in C17 is needed: a scale that is not a number in range is lost, and 0 is put
in its place. -/
theorem C17_bad_scale_lost :
    ∃ s, walkFullType none (.mk [⟨"logicalType", .str "\"decimal\"", none⟩, ⟨"precision", .int "9" none, none⟩,
        ⟨"scale", .str "\"abc\"", none⟩] (.prim (.prim .bytes) false none) none) ⟨[], []⟩ = .ok (s, ⟨[], []⟩) ∧
      schemaToJson [] 1 s none [] = some (.obj [("logicalType", .str "decimal"),
        ("precision", .num (.int 9)), ("scale", .num (.int 0)), ("type", .str "bytes")], []) :=
  ⟨_, rfl, rfl⟩

/-- A scale above the precision, which `decimal(p, s)` rejects, is accepted in an annotation. -/
theorem C17_scale_above_precision_accepted :
    walkFullType none (.mk [⟨"logicalType", .str "\"decimal\"", none⟩, ⟨"precision", .int "2" none, none⟩,
        ⟨"scale", .int "5" none, none⟩] (.prim (.prim .bytes) false none) none) ⟨[], []⟩ =
      .ok (.logical (.decimal 2 5) [], ⟨[], []⟩) ∧
    walkFullType none (.mk [] (.prim (.decimal "2" none (some ("5", none))) false none) none) ⟨[], []⟩ =
      .error ⟨.badScale, none⟩ := ⟨rfl, rfl⟩

/-- C16 fails for logical types: `@logicalType("foo") date` and `@precision(3) decimal(5, 2)`
replace the type's own entries. -/
theorem C16_logical_type_overridden :
    (∃ s, walkFullType none (.mk [⟨"logicalType", .str "\"foo\"", none⟩] (.prim .date false none) none) ⟨[], []⟩ =
        .ok (s, ⟨[], []⟩) ∧
      schemaToJson [] 1 s none [] = some (.obj [("logicalType", .str "foo"),
        ("type", .str "int")], [])) ∧
    ∃ s, walkFullType none (.mk [⟨"precision", .int "3" none, none⟩] (.prim (.decimal "5" none (some ("2", none))) false none) none)
        ⟨[], []⟩ = .ok (s, ⟨[], []⟩) ∧
      schemaToJson [] 1 s none [] = some (.obj [("logicalType", .str "decimal"),
        ("precision", .num (.int 3)), ("scale", .num (.int 2)), ("type", .str "bytes")], []) :=
  ⟨⟨_, rfl, rfl⟩, ⟨_, rfl, rfl⟩⟩

end Avdl.Props
