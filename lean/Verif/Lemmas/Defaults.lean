import Verif.Defaults
import Verif.Spec.Default
import Verif.Lemmas.Json
/-! Lemmas on default validation. -/

namespace Avdl

open Spec

theorem lookup_eq_get? (o : JMap) (k : String) : lookup o k = JMap.get? o k := by
  induction o with
  | nil => rfl
  | cons kv t ih => obtain ⟨k', v⟩ := kv; simp [lookup, JMap.get?, ih]

/-- Induction principle for schemas: fields and branches are handled through membership. -/
theorem Schema.induct {P : Schema → Prop}
    (prim : ∀ p, P (.prim p))
    (record : ∀ n ns d fs e al ps, (∀ f ∈ fs, P f.schema) → P (.record n ns d fs e al ps))
    (enum : ∀ n ns d sy df al ps, P (.enum n ns d sy df al ps))
    (fixed : ∀ n ns d sz al ps, P (.fixed n ns d sz al ps))
    (array : ∀ i ps, P i → P (.array i ps))
    (map : ∀ i ps, P i → P (.map i ps))
    (union : ∀ ts b, (∀ t ∈ ts, P t) → P (.union ts b))
    (annotated : ∀ k ps, P (.annotated k ps))
    (logical : ∀ lt ps, P (.logical lt ps))
    (ref : ∀ n ns ps sp, P (.ref n ns ps sp)) : ∀ s, P s := by
  intro s
  refine Schema.rec (motive_1 := P) (motive_2 := fun f => P f.schema)
    (motive_3 := fun fs => ∀ f ∈ fs, P f.schema) (motive_4 := fun ts => ∀ t ∈ ts, P t)
    prim (fun n ns d fs e al ps ih => record n ns d fs e al ps ih) enum fixed
    (fun i ps ih => array i ps ih) (fun i ps ih => map i ps ih) (fun ts b ih => union ts b ih)
    annotated logical ref (fun _ _ _ _ _ _ _ ih => ih) (by simp) ?_ (by simp) ?_ s
  · intro f fs hf hfs g hg
    rcases List.mem_cons.mp hg with rfl | hg
    · exact hf
    · exact hfs g hg
  · intro t ts ht hts u hu
    rcases List.mem_cons.mp hu with rfl | hu
    · exact ht
    · exact hts u hu

theorem validPrim_iff (v : Json) (p : Prim) : validPrim v p = true ↔ ConformsPrim v p := by
  constructor
  · intro h
    cases p <;> cases v <;> simp only [validPrim, Json.isStr, Bool.false_eq_true] at h
    · exact .null
    · exact .boolean _
    · rename_i n
      cases n with
      | float neg m e => simp at h
      | int i =>
        simp only [JNum.isI64, Bool.and_eq_true, decide_eq_true_eq] at h
        exact .int i (by omega) (by omega)
    · rename_i n
      cases n with
      | float neg m e => simp [JNum.isI64] at h
      | int i =>
        simp only [JNum.isI64, decide_eq_true_eq] at h
        exact .long i (by omega) (by omega)
    · exact .float _
    · refine .floatName _ ?_
      simpa [or_assoc] using h
    · exact .double _
    · refine .doubleName _ ?_
      simpa [or_assoc] using h
    · exact .bytes _
    · exact .string _
  · intro h
    cases h with
    | null => rfl
    | boolean => rfl
    | int i h1 h2 =>
      simp only [validPrim, JNum.isI64, Bool.and_eq_true, decide_eq_true_eq]; omega
    | long i h1 h2 => simp only [validPrim, JNum.isI64, decide_eq_true_eq]; omega
    | float => rfl
    | double => rfl
    | floatName s h => simpa [validPrim, or_assoc] using h
    | doubleName s h => simpa [validPrim, or_assoc] using h
    | bytes => rfl
    | string => rfl

theorem validFields_iff (o : JMap) (fs : List Field) : validFields o fs = true ↔
    (∀ f ∈ fs, ∀ v, lookup o f.name = some v → isValidDefault v f.schema = true) ∧
    (∀ f ∈ fs, lookup o f.name = none → f.default ≠ none) := by
  induction fs with
  | nil => simp [validFields]
  | cons f fs ih =>
    cases f with
    | mk n s d df or al ps =>
      simp only [validFields, Bool.and_eq_true, ih, List.forall_mem_cons, Field.name, Field.schema,
        Field.default, lookup_eq_get?]
      cases h : JMap.get? o n with
      | none =>
        simp only [reduceCtorEq, false_implies, implies_true, true_and, forall_const]
        cases df <;> simp
      | some v =>
        simp [and_assoc]

theorem validAny_iff (v : Json) (ts : List Schema) : validAny v ts = true ↔
    ∃ t ∈ ts, isValidDefault v t = true := by
  induction ts with
  | nil => simp [validAny]
  | cons t ts ih => simp [validAny, ih]

theorem Spec.RefFree.record {n ns d fs e al ps} (h : RefFree (.record n ns d fs e al ps)) :
    ∀ f ∈ fs, RefFree f.schema := fun _ hf x sp hr => h x sp (.field hf hr)
theorem Spec.RefFree.array {i ps} (h : RefFree (.array i ps)) : RefFree i :=
  fun x sp hr => h x sp (.items hr)
theorem Spec.RefFree.map {i ps} (h : RefFree (.map i ps)) : RefFree i :=
  fun x sp hr => h x sp (.values hr)
theorem Spec.RefFree.union {ts b} (h : RefFree (.union ts b)) : ∀ t ∈ ts, RefFree t :=
  fun _ ht x sp hr => h x sp (.branch ht hr)

/-- Validation against a schema that is not resolved any further: references accept anything. -/
theorem valid_iff_conformsU (s : Schema) : ∀ (V : List String) (v : Json),
    (∀ x sp, RefersTo s x sp → x ∈ V) →
    (isValidDefault v s = true ↔ ConformsU (fun _ => none) V v s) := by
  refine Schema.induct (P := fun s => ∀ (V : List String) (v : Json),
    (∀ x sp, RefersTo s x sp → x ∈ V) →
    (isValidDefault v s = true ↔ ConformsU (fun _ => none) V v s)) ?_ ?_ ?_ ?_ ?_ ?_ ?_ ?_ ?_ ?_ s
  · intro p V v _
    simp only [isValidDefault, validPrim_iff]
    exact ⟨.prim, fun h => by cases h; assumption⟩
  · intro n ns d fs e al ps ih V v hV
    have hV' : ∀ f ∈ fs, ∀ x sp, RefersTo f.schema x sp → x ∈ makeFullName n ns :: V :=
      fun f hf x sp hr => List.mem_cons_of_mem _ (hV x sp (.field hf hr))
    cases v with
    | obj o =>
      simp only [isValidDefault, validFields_iff]
      constructor
      · rintro ⟨h1, h2⟩
        exact .record (fun f hf v hv => (ih f hf _ v (hV' f hf)).mp (h1 f hf v hv)) h2
      · intro h
        cases h with
        | record h1 h2 =>
          exact ⟨fun f hf v hv => (ih f hf _ v (hV' f hf)).mpr (h1 f hf v hv), h2⟩
    | _ =>
      simp only [isValidDefault, Bool.false_eq_true, false_iff]
      intro h; cases h
  · intro n ns d sy df al ps V v _
    cases v <;> simp only [isValidDefault, Json.isStr, Bool.false_eq_true, false_iff, true_iff]
    all_goals first | exact .enum | (intro h; cases h)
  · intro n ns d sz al ps V v _
    cases v <;> simp only [isValidDefault, Json.isStr, Bool.false_eq_true, false_iff, true_iff]
    all_goals first | exact .fixed | (intro h; cases h)
  · intro i ps ih V v hV
    have hV' : ∀ x sp, RefersTo i x sp → x ∈ V := fun x sp hr => hV x sp (.items hr)
    cases v with
    | arr l =>
      simp only [isValidDefault, List.all_eq_true]
      constructor
      · intro h; exact .array fun v hv => (ih V v hV').mp (h v hv)
      · intro h; cases h with
        | array h => exact fun v hv => (ih V v hV').mpr (h v hv)
    | _ =>
      simp only [isValidDefault, Bool.false_eq_true, false_iff]
      intro h; cases h
  · intro i ps ih V v hV
    have hV' : ∀ x sp, RefersTo i x sp → x ∈ V := fun x sp hr => hV x sp (.values hr)
    cases v with
    | obj l =>
      simp only [isValidDefault, List.all_eq_true]
      constructor
      · intro h; exact .map fun kv hv => (ih V kv.2 hV').mp (h kv hv)
      · intro h; cases h with
        | map h => exact fun kv hv => (ih V kv.2 hV').mpr (h kv hv)
    | _ =>
      simp only [isValidDefault, Bool.false_eq_true, false_iff]
      intro h; cases h
  · intro ts b ih V v hV
    simp only [isValidDefault, validAny_iff]
    constructor
    · rintro ⟨t, ht, h⟩
      exact .union ht ((ih t ht V v fun x sp hr => hV x sp (.branch ht hr)).mp h)
    · intro h; cases h with
      | union ht h => exact ⟨_, ht, (ih _ ht V v fun x sp hr => hV x sp (.branch ht hr)).mpr h⟩
  · intro k ps V v _
    simp only [isValidDefault, validPrim_iff]
    exact ⟨.annotated, fun h => by cases h; assumption⟩
  · intro lt ps V v _
    simp only [isValidDefault, validPrim_iff]
    exact ⟨.logical, fun h => by cases h; assumption⟩
  · intro n ns ps sp V v hV
    simp only [isValidDefault, true_iff]
    exact .recursive (hV _ _ .ref)

theorem conforms_iff_conformsU_refFree (res : String → Option Schema) (s : Schema) :
    ∀ (res' : String → Option Schema) (V : List String) (v : Json), RefFree s →
      (Conforms res v s ↔ ConformsU res' V v s) := by
  refine Schema.induct (P := fun s => ∀ (res' : String → Option Schema) (V : List String) (v : Json),
    RefFree s → (Conforms res v s ↔ ConformsU res' V v s)) ?_ ?_ ?_ ?_ ?_ ?_ ?_ ?_ ?_ ?_ s
  · intro p res' V v _
    constructor <;> (intro h; cases h; constructor; assumption)
  · intro n ns d fs e al ps ih res' V v hr
    constructor
    · intro h
      cases h with
      | record h1 h2 =>
        exact .record (fun f hf v hv => (ih f hf res' _ v (hr.record f hf)).mp (h1 f hf v hv)) h2
    · intro h
      cases h with
      | record h1 h2 =>
        exact .record (fun f hf v hv => (ih f hf res' _ v (hr.record f hf)).mpr (h1 f hf v hv)) h2
  · intro n ns d sy df al ps res' V v _
    constructor <;> (intro h; cases h; constructor)
  · intro n ns d sz al ps res' V v _
    constructor <;> (intro h; cases h; constructor)
  · intro i ps ih res' V v hr
    constructor
    · intro h; cases h with
      | array h => exact .array fun v hv => (ih res' V v hr.array).mp (h v hv)
    · intro h; cases h with
      | array h => exact .array fun v hv => (ih res' V v hr.array).mpr (h v hv)
  · intro i ps ih res' V v hr
    constructor
    · intro h; cases h with
      | map h => exact .map fun v hv => (ih res' V v.2 hr.map).mp (h v hv)
    · intro h; cases h with
      | map h => exact .map fun v hv => (ih res' V v.2 hr.map).mpr (h v hv)
  · intro ts b ih res' V v hr
    constructor
    · intro h; cases h with
      | union ht h => exact .union ht ((ih _ ht res' V v (hr.union _ ht)).mp h)
    · intro h; cases h with
      | union ht h => exact .union ht ((ih _ ht res' V v (hr.union _ ht)).mpr h)
  · intro k ps res' V v _
    constructor <;> (intro h; cases h; constructor; assumption)
  · intro lt ps res' V v _
    constructor <;> (intro h; cases h; constructor; assumption)
  · intro n ns ps sp res' V v hr
    exact absurd .ref (hr _ _)

/-- Treating recursive positions as unknown only enlarges the set of legal defaults. -/
theorem Conforms.toU {res : String → Option Schema} {v : Json} {s : Schema}
    (h : Conforms res v s) : ∀ V, ConformsU res V v s := by
  induction h with
  | prim h => exact fun V => .prim h
  | annotated h => exact fun V => .annotated h
  | logical h => exact fun V => .logical h
  | enum => exact fun V => .enum
  | fixed => exact fun V => .fixed
  | array _ ih => exact fun V => .array fun v hv => ih v hv V
  | map _ ih => exact fun V => .map fun v hv => ih v hv V
  | union ht _ ih => exact fun V => .union ht (ih V)
  | record _ h2 ih => exact fun V => .record (fun f hf v hv => ih f hf v hv _) h2
  | @ref v n ns ps sp t hres _ ih =>
    intro V
    by_cases hm : makeFullName n ns ∈ V
    · exact .recursive hm
    · exact .ref hm hres (ih V)

theorem resolveLoop_done {α β : Type} {f : α → Resolved β} {l : List α} {l' : List β}
    (h : resolveLoop f l = .done l') :
    (∀ b ∈ l', ∃ a ∈ l, f a = .done b) ∧ (∀ a ∈ l, ∃ b ∈ l', f a = .done b) := by
  induction l generalizing l' with
  | nil => simp only [resolveLoop, Resolved.done.injEq] at h; subst h; simp
  | cons a as ih =>
    simp only [resolveLoop] at h
    cases h1 : f a with
    | timeout => rw [h1] at h; cases h
    | unresolved => rw [h1] at h; cases h
    | done b =>
      rw [h1] at h
      simp only at h
      cases h2 : resolveLoop f as with
      | timeout => rw [h2] at h; cases h
      | unresolved => rw [h2] at h; cases h
      | done bs =>
        rw [h2] at h
        simp only [Resolved.done.injEq] at h
        subst h
        obtain ⟨i1, i2⟩ := ih h2
        constructor
        · intro b' hb
          rcases List.mem_cons.mp hb with rfl | hb
          · exact ⟨a, by simp, h1⟩
          · obtain ⟨a', ha, hf⟩ := i1 b' hb
            exact ⟨a', List.mem_cons_of_mem _ ha, hf⟩
        · intro a' ha
          rcases List.mem_cons.mp ha with rfl | ha
          · exact ⟨b, by simp, h1⟩
          · obtain ⟨b', hb, hf⟩ := i2 a' ha
            exact ⟨b', List.mem_cons_of_mem _ hb, hf⟩

/-- Resolving and then validating is conformance with recursive positions unknown. -/
theorem resolved_valid_iff (res : String → Option Schema) (n : Nat) :
    ∀ (s : Schema) (V : List String) (r : Schema), resolveInner res n s V = .done r →
      ∀ v, isValidDefault v r = true ↔ ConformsU res V v s := by
  induction n with
  | zero => intro s V r h; simp [resolveInner] at h
  | succ n ih =>
    intro s V r h v
    cases s with
    | prim p =>
      simp only [resolveInner, Resolved.done.injEq] at h
      subst h
      simp only [isValidDefault, validPrim_iff]
      exact ⟨.prim, fun h => by cases h; assumption⟩
    | annotated p ps =>
      simp only [resolveInner, Resolved.done.injEq] at h
      subst h
      simp only [isValidDefault, validPrim_iff]
      exact ⟨.annotated, fun h => by cases h; assumption⟩
    | logical p ps =>
      simp only [resolveInner, Resolved.done.injEq] at h
      subst h
      simp only [isValidDefault, validPrim_iff]
      exact ⟨.logical, fun h => by cases h; assumption⟩
    | enum nm ns d sy df al ps =>
      simp only [resolveInner, Resolved.done.injEq] at h
      subst h
      cases v <;> simp only [isValidDefault, Json.isStr, Bool.false_eq_true, false_iff, true_iff]
      all_goals first | exact .enum | (intro h; cases h)
    | fixed nm ns d sz al ps =>
      simp only [resolveInner, Resolved.done.injEq] at h
      subst h
      cases v <;> simp only [isValidDefault, Json.isStr, Bool.false_eq_true, false_iff, true_iff]
      all_goals first | exact .fixed | (intro h; cases h)
    | array i ps =>
      simp only [resolveInner] at h
      cases h1 : resolveInner res n i V with
      | timeout => rw [h1] at h; cases h
      | unresolved => rw [h1] at h; cases h
      | done i' =>
        rw [h1] at h
        simp only [Resolved.done.injEq] at h
        subst h
        have ih' := ih i V i' h1
        cases v with
        | arr l =>
          simp only [isValidDefault, List.all_eq_true]
          constructor
          · intro h; exact .array fun v hv => (ih' v).mp (h v hv)
          · intro h; cases h with
            | array h => exact fun v hv => (ih' v).mpr (h v hv)
        | _ =>
          simp only [isValidDefault, Bool.false_eq_true, false_iff]
          intro h; cases h
    | map i ps =>
      simp only [resolveInner] at h
      cases h1 : resolveInner res n i V with
      | timeout => rw [h1] at h; cases h
      | unresolved => rw [h1] at h; cases h
      | done i' =>
        rw [h1] at h
        simp only [Resolved.done.injEq] at h
        subst h
        have ih' := ih i V i' h1
        cases v with
        | obj l =>
          simp only [isValidDefault, List.all_eq_true]
          constructor
          · intro h; exact .map fun v hv => (ih' v.2).mp (h v hv)
          · intro h; cases h with
            | map h => exact fun v hv => (ih' v.2).mpr (h v hv)
        | _ =>
          simp only [isValidDefault, Bool.false_eq_true, false_iff]
          intro h; cases h
    | union ts b =>
      simp only [resolveInner] at h
      cases h1 : resolveLoop (fun t => resolveInner res n t V) ts with
      | timeout => rw [h1] at h; cases h
      | unresolved => rw [h1] at h; cases h
      | done ts' =>
        rw [h1] at h
        simp only [Resolved.done.injEq] at h
        subst h
        obtain ⟨g1, g2⟩ := resolveLoop_done h1
        simp only [isValidDefault, validAny_iff]
        constructor
        · rintro ⟨t', ht', hv⟩
          obtain ⟨t, ht, hr⟩ := g1 t' ht'
          exact .union ht ((ih t V t' hr v).mp hv)
        · intro h; cases h with
          | @union _ _ t _ _ ht h =>
            obtain ⟨t', ht', hr⟩ := g2 t ht
            exact ⟨t', ht', (ih t V t' hr v).mpr h⟩
    | ref nm ns ps sp =>
      simp only [resolveInner] at h
      split at h
      · rename_i hV
        simp only [List.contains_iff_mem] at hV
        simp only [Resolved.done.injEq] at h
        subst h
        simp only [isValidDefault, true_iff]
        exact .recursive hV
      · rename_i hV
        simp only [List.contains_iff_mem] at hV
        cases hres : res (makeFullName nm ns) with
        | none => rw [hres] at h; cases h
        | some t =>
          rw [hres] at h
          rw [ih t V r h v]
          constructor
          · exact .ref hV hres
          · intro h'
            cases h' with
            | recursive hm => exact absurd hm hV
            | ref _ hres' h' => rw [hres] at hres'; cases hres'; exact h'
    | record nm ns d fs e al ps =>
      simp only [resolveInner] at h
      cases h1 : resolveLoop (fun f => resolveField f
          (resolveInner res n f.schema (makeFullName nm ns :: V))) fs with
      | timeout => rw [h1] at h; cases h
      | unresolved => rw [h1] at h; cases h
      | done fs' =>
        rw [h1] at h
        simp only [Resolved.done.injEq] at h
        subst h
        obtain ⟨g1, g2⟩ := resolveLoop_done h1
        have conv : ∀ (f f' : Field),
            resolveField f (resolveInner res n f.schema (makeFullName nm ns :: V)) = .done f' →
            f'.name = f.name ∧ f'.default = f.default ∧
            ∀ v, isValidDefault v f'.schema = true ↔
              ConformsU res (makeFullName nm ns :: V) v f.schema := by
          intro f f' hf
          cases hs : resolveInner res n f.schema (makeFullName nm ns :: V) with
          | timeout => rw [hs] at hf; cases hf
          | unresolved => rw [hs] at hf; cases hf
          | done s' =>
            rw [hs] at hf
            simp only [resolveField, Resolved.done.injEq] at hf
            subst hf
            exact ⟨rfl, rfl, ih f.schema _ s' hs⟩
        cases v with
        | obj o =>
          simp only [isValidDefault, validFields_iff]
          constructor
          · rintro ⟨p1, p2⟩
            refine .record ?_ ?_
            · intro f hf v hv
              obtain ⟨f', hf', hc⟩ := g2 f hf
              obtain ⟨c1, c2, c3⟩ := conv f f' hc
              exact (c3 v).mp (p1 f' hf' v (by rw [c1]; exact hv))
            · intro f hf hn
              obtain ⟨f', hf', hc⟩ := g2 f hf
              obtain ⟨c1, c2, c3⟩ := conv f f' hc
              rw [← c2]
              exact p2 f' hf' (by rw [c1]; exact hn)
          · intro h
            cases h with
            | record p1 p2 =>
              constructor
              · intro f' hf' v hv
                obtain ⟨f, hf, hc⟩ := g1 f' hf'
                obtain ⟨c1, c2, c3⟩ := conv f f' hc
                exact (c3 v).mpr (p1 f hf v (by rw [← c1]; exact hv))
              · intro f' hf' hn
                obtain ⟨f, hf, hc⟩ := g1 f' hf'
                obtain ⟨c1, c2, c3⟩ := conv f f' hc
                rw [c2]
                exact p2 f hf (by rw [← c1]; exact hn)
        | _ =>
          simp only [isValidDefault, Bool.false_eq_true, false_iff]
          intro h; cases h

/-! ### Reasons -/

theorem firstInvalidField_none {o : JMap} {fs : List Field}
    (ih : ∀ f ∈ fs, ∀ v, validateDefault v f.schema = none → isValidDefault v f.schema = true)
    (h : firstInvalidField o fs = none) :
    ∀ f ∈ fs, ∀ v, lookup o f.name = some v → isValidDefault v f.schema = true := by
  induction fs with
  | nil => simp
  | cons f fs ihf =>
    cases f with
    | mk n s d df or al ps =>
      simp only [firstInvalidField] at h
      intro g hg v hv
      rw [lookup_eq_get?] at hv
      have ih1 := ih (.mk n s d df or al ps) (by simp)
      simp only [Field.schema] at ih1
      cases hget : JMap.get? o n with
      | none =>
        rw [hget] at h
        rcases List.mem_cons.mp hg with rfl | hg
        · simp only [Field.name] at hv; rw [hget] at hv; cases hv
        · exact ihf (fun f hf => ih f (List.mem_cons_of_mem _ hf)) h g hg v
            (by rw [lookup_eq_get?]; exact hv)
      | some fv =>
        rw [hget] at h
        simp only at h
        cases hval : validateDefault fv s with
        | some r => rw [hval] at h; cases h
        | none =>
          rw [hval] at h
          rcases List.mem_cons.mp hg with rfl | hg
          · simp only [Field.name] at hv; rw [hget] at hv; cases hv
            exact ih1 _ hval
          · exact ihf (fun f hf => ih f (List.mem_cons_of_mem _ hf)) h g hg v
              (by rw [lookup_eq_get?]; exact hv)

theorem validateDefault_none_iff (s : Schema) (v : Json) :
    validateDefault v s = none ↔ isValidDefault v s = true := by
  cases s with
  | prim p =>
    simp only [validateDefault, isValidDefault]
    split <;> simp_all
  | record n ns d fs e al ps =>
    simp only [validateDefault]
    split
    · simp_all
    · rename_i h
      simp only [h]
      cases v with
      | obj o =>
        simp only
        split
        · split <;> simp
        · simp
      | _ => simp
  | ref => simp [validateDefault, isValidDefault]
  | _ =>
    simp only [validateDefault]
    split <;> simp_all

end Avdl
