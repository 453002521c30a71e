import Verif.Serialize
import Verif.Spec.WellFormed
/-! Fuel: the serializer terminates, and its result does not depend on the fuel. -/

namespace Avdl

mutual
/-- Nesting depth of a schema; a reference counts for itself and the name it may expand to. -/
def Schema.depth : Schema → Nat
  | .record _ _ _ fs _ _ _ => Schema.depthF fs + 1
  | .array i _ => i.depth + 1
  | .map i _ => i.depth + 1
  | .union ts _ => Schema.depthL ts + 1
  | .prim _ | .enum .. | .fixed .. | .annotated .. | .logical .. => 1
  | .ref .. => 2
def Schema.depthF : List Field → Nat
  | [] => 0
  | .mk _ s _ _ _ _ _ :: fs => max s.depth (Schema.depthF fs)
def Schema.depthL : List Schema → Nat
  | [] => 0
  | s :: ss => max s.depth (Schema.depthL ss)
end

theorem Schema.depth_pos (s : Schema) : 0 < s.depth := by cases s <;> simp [Schema.depth]

theorem Schema.depth_le_depthF {fs : List Field} {f : Field} (h : f ∈ fs) :
    f.schema.depth ≤ Schema.depthF fs := by
  induction fs with
  | nil => simp at h
  | cons g gs ih =>
    cases g
    simp only [Schema.depthF]
    rcases List.mem_cons.mp h with rfl | h
    · exact Nat.le_max_left ..
    · exact Nat.le_trans (ih h) (Nat.le_max_right ..)

theorem Schema.depth_le_depthL {ss : List Schema} {s : Schema} (h : s ∈ ss) :
    s.depth ≤ Schema.depthL ss := by
  induction ss with
  | nil => simp at h
  | cons g gs ih =>
    simp only [Schema.depthL]
    rcases List.mem_cons.mp h with rfl | h
    · exact Nat.le_max_left ..
    · exact Nat.le_trans (ih h) (Nat.le_max_right ..)

/-- Extra fuel does not change a `mapAccum` result. -/
theorem mapAccum_mono {α β σ : Type} {f g : α → σ → Option (β × σ)} {l : List α}
    (H : ∀ a ∈ l, ∀ s r, f a s = some r → g a s = some r) {s : σ} {r : List β × σ}
    (h : mapAccum f l s = some r) : mapAccum g l s = some r := by
  induction l generalizing s r with
  | nil => exact h
  | cons a as ih =>
    simp only [mapAccum] at h ⊢
    cases h1 : f a s with
    | none => rw [h1] at h; cases h
    | some bs =>
      obtain ⟨b, s1⟩ := bs
      rw [H a (by simp) s _ h1]
      rw [h1] at h
      simp only at h ⊢
      cases h2 : mapAccum f as s1 with
      | none => rw [h2] at h; cases h
      | some r2 =>
        rw [ih (fun a ha => H a (List.mem_cons_of_mem _ ha)) h2]
        rw [h2] at h
        exact h

theorem ser_mono (lk : Lookup) {n : Nat} : ∀ {m : Nat}, n ≤ m → ∀ {s encl K r},
    schemaToJson lk n s encl K = some r → schemaToJson lk m s encl K = some r := by
  induction n with
  | zero => intro m _ s encl K r h; simp [schemaToJson] at h
  | succ n ih =>
    intro m hm s encl K r h
    obtain ⟨m, rfl⟩ : ∃ k, m = k + 1 := ⟨m - 1, by omega⟩
    have hnm : n ≤ m := by omega
    cases s with
    | prim p => exact h
    | annotated k ps => exact h
    | logical lt ps => exact h
    | enum _ _ _ _ _ _ _ => exact h
    | fixed _ _ _ _ _ _ => exact h
    | record nm ns doc fs er al ps =>
      simp only [schemaToJson] at h ⊢
      split at h
      · exact h
      · rename_i obj K1 hpre
        cases hma : mapAccum (fieldToJson fun s k => schemaToJson lk n s (ns.or encl) k) fs K1 with
        | none => rw [hma] at h; cases h
        | some r2 =>
          rw [hma] at h
          rw [mapAccum_mono (g := fieldToJson fun s k => schemaToJson lk m s (ns.or encl) k) _ hma]
          · exact h
          · intro f _ s r hf
            simp only [fieldToJson] at hf ⊢
            cases hs : schemaToJson lk n f.schema (ns.or encl) s with
            | none => rw [hs] at hf; cases hf
            | some r3 => rw [ih hnm hs]; rw [hs] at hf; exact hf
    | array i ps =>
      simp only [schemaToJson] at h ⊢
      cases hs : schemaToJson lk n i encl K with
      | none => rw [hs] at h; cases h
      | some r => rw [ih hnm hs]; rw [hs] at h; exact h
    | map i ps =>
      simp only [schemaToJson] at h ⊢
      cases hs : schemaToJson lk n i encl K with
      | none => rw [hs] at h; cases h
      | some r => rw [ih hnm hs]; rw [hs] at h; exact h
    | union ts b =>
      simp only [schemaToJson] at h ⊢
      cases hma : mapAccum (fun s k => schemaToJson lk n s encl k) ts K with
      | none => rw [hma] at h; cases h
      | some r2 =>
        rw [hma] at h
        rw [mapAccum_mono (g := fun s k => schemaToJson lk m s encl k) _ hma]
        · exact h
        · intro f _ s r hf
          exact ih hnm hf
    | ref nm ns ps sp =>
      simp only [schemaToJson] at h ⊢
      split
      · rename_i hk; rw [if_pos hk] at h; exact h
      · rename_i hk
        rw [if_neg hk] at h
        cases hl : lk.get? (makeFullName nm ns) with
        | none => rw [hl] at h; exact h
        | some t => rw [hl] at h; exact ih hnm h

/-- All entries of the lookup table are definitions of named types. -/
def LookupNamed (lk : Lookup) : Prop := ∀ kt ∈ lk, kt.2.IsNamed

/-- Number of table entries whose own name has not been emitted yet. -/
def unknownCount (lk : Lookup) (K : Known) : Nat :=
  (lk.filter fun kt => match kt.2.fullName? with | some x => !K.contains x | none => false).length

/-- Largest depth of a table entry. -/
def lookupDepth (lk : Lookup) : Nat := Schema.depthL (lk.map Prod.snd)

theorem List.length_filter_le_of_imp {α : Type} (l : List α) {p q : α → Bool}
    (h : ∀ a ∈ l, p a = true → q a = true) : (l.filter p).length ≤ (l.filter q).length := by
  induction l with
  | nil => simp
  | cons a as ih =>
    have ih' := ih fun x hx => h x (List.mem_cons_of_mem _ hx)
    simp only [List.filter_cons]
    cases hp : p a with
    | true => rw [h a (by simp) hp]; simpa using ih'
    | false =>
      cases q a with
      | true => simpa using Nat.le_succ_of_le ih'
      | false => simpa using ih'

theorem List.length_filter_lt_of_imp {α : Type} (l : List α) {p q : α → Bool}
    (h : ∀ a ∈ l, p a = true → q a = true) {x : α} (hx : x ∈ l) (hpx : p x = false)
    (hqx : q x = true) : (l.filter p).length < (l.filter q).length := by
  induction l with
  | nil => simp at hx
  | cons a as ih =>
    have himp : ∀ a ∈ as, p a = true → q a = true := fun x hx => h x (List.mem_cons_of_mem _ hx)
    rcases List.mem_cons.mp hx with rfl | hx
    · simp only [List.filter_cons, hpx, hqx]
      have := List.length_filter_le_of_imp as himp
      simpa using Nat.lt_succ_of_le this
    · have ih' := ih himp hx
      simp only [List.filter_cons]
      cases hp : p a with
      | true => rw [h a (by simp) hp]; simpa using ih'
      | false =>
        cases q a with
        | true => simpa using Nat.lt_succ_of_lt ih'
        | false => simpa using ih'

theorem unknownCount_anti (lk : Lookup) {K K' : Known} (h : ∀ x ∈ K, x ∈ K') :
    unknownCount lk K' ≤ unknownCount lk K := by
  apply List.length_filter_le_of_imp
  intro a _ ha
  cases hf : a.2.fullName? with
  | none => rw [hf] at ha; exact ha
  | some x =>
    rw [hf] at ha
    simp only [Bool.not_eq_true', List.contains_eq_mem, decide_eq_false_iff_not] at ha ⊢
    exact fun hx => ha (h x hx)

theorem unknownCount_lt (lk : Lookup) {K : Known} {k : String} {t : Schema} {x : String}
    (hm : (k, t) ∈ lk) (hx : t.fullName? = some x) (hK : x ∉ K) :
    unknownCount lk (x :: K) < unknownCount lk K := by
  refine List.length_filter_lt_of_imp lk ?_ hm ?_ ?_
  · intro a _ ha
    cases hf : a.2.fullName? with
    | none => rw [hf] at ha; exact ha
    | some y =>
      rw [hf] at ha
      simp only [Bool.not_eq_true', List.contains_eq_mem, decide_eq_false_iff_not,
        List.mem_cons, not_or] at ha ⊢
      exact ha.2
  · simp [hx]
  · simp [hx, hK]

theorem Lookup.mem_of_get? {lk : Lookup} {k : String} {t : Schema} (h : lk.get? k = some t) :
    (k, t) ∈ lk := by
  induction lk with
  | nil => simp [Lookup.get?] at h
  | cons kt lk ih =>
    obtain ⟨k', t'⟩ := kt
    simp only [Lookup.get?] at h
    split at h
    · rename_i hk; subst hk; cases h; simp
    · exact List.mem_cons_of_mem _ (ih h)

theorem mapAccum_total {α β : Type} {f : α → Known → Option (β × Known)} {l : List α} {K : Known}
    (H : ∀ a ∈ l, ∀ K1, (∀ x ∈ K, x ∈ K1) → ∃ b K2, f a K1 = some (b, K2) ∧ ∀ x ∈ K1, x ∈ K2) :
    ∃ bs K2, mapAccum f l K = some (bs, K2) ∧ ∀ x ∈ K, x ∈ K2 := by
  induction l generalizing K with
  | nil => exact ⟨[], K, rfl, fun _ h => h⟩
  | cons a as ih =>
    obtain ⟨b, K1, h1, hs1⟩ := H a (by simp) K fun _ h => h
    obtain ⟨bs, K2, h2, hs2⟩ := ih (K := K1) fun a ha K' hK' =>
      H a (List.mem_cons_of_mem _ ha) K' fun x hx => hK' x (hs1 x hx)
    exact ⟨b :: bs, K2, by simp [mapAccum, h1, h2], fun x hx => hs2 x (hs1 x hx)⟩

theorem preamble_cases (t n : String) (ns doc encl : Option String) (K : Known) :
    (makeFullName n ns ∈ K ∧
      namedTypePreamble t n ns doc K encl = .error (.str (schemaRefName n ns encl))) ∨
    (makeFullName n ns ∉ K ∧
      ∃ obj, namedTypePreamble t n ns doc K encl = .ok (obj, makeFullName n ns :: K)) := by
  by_cases h : makeFullName n ns ∈ K
  · exact .inl ⟨h, by simp [namedTypePreamble, h]⟩
  · exact .inr ⟨h, _, by simp only [namedTypePreamble, List.contains_iff_mem, h, if_false]; rfl⟩

/-- The fuel bound: a definition not emitted yet counts as emitted for its own parts. -/
def serBound (lk : Lookup) (s : Schema) (K : Known) : Nat :=
  match s.name?, s.fullName? with
  | some _, some x => s.depth + unknownCount lk (x :: K) * (lookupDepth lk + 1)
  | _, _ => s.depth + unknownCount lk K * (lookupDepth lk + 1)

theorem serBound_le (lk : Lookup) (s : Schema) (K : Known) :
    serBound lk s K ≤ s.depth + unknownCount lk K * (lookupDepth lk + 1) := by
  unfold serBound
  split
  · apply Nat.add_le_add_left
    apply Nat.mul_le_mul_right
    exact unknownCount_anti lk fun x hx => List.mem_cons_of_mem _ hx
  · exact Nat.le_refl _

theorem ser_total (lk : Lookup) (hlk : LookupNamed lk) (n : Nat) :
    ∀ s encl K, serBound lk s K ≤ n →
      ∃ j K', schemaToJson lk n s encl K = some (j, K') ∧ ∀ x ∈ K, x ∈ K' := by
  induction n with
  | zero =>
    intro s encl K h
    have := Schema.depth_pos s
    unfold serBound at h
    split at h <;> omega
  | succ n ih =>
    intro s encl K hn
    have sub : ∀ (s' : Schema) (encl' : Option String) (K1 : Known), (∀ x ∈ K, x ∈ K1) →
        s'.depth + unknownCount lk K * (lookupDepth lk + 1) ≤ n →
        ∃ j K', schemaToJson lk n s' encl' K1 = some (j, K') ∧ ∀ x ∈ K1, x ∈ K' := by
      intro s' encl' K1 hK1 hd
      apply ih
      refine Nat.le_trans (serBound_le lk s' K1) (Nat.le_trans ?_ hd)
      apply Nat.add_le_add_left
      apply Nat.mul_le_mul_right
      exact unknownCount_anti lk hK1
    cases s with
    | prim p => exact ⟨_, _, rfl, fun _ h => h⟩
    | annotated k ps => exact ⟨_, _, rfl, fun _ h => h⟩
    | logical lt ps => exact ⟨_, _, rfl, fun _ h => h⟩
    | enum nm ns doc sy df al ps =>
      rcases preamble_cases "enum" nm ns doc encl K with ⟨h, he⟩ | ⟨h, obj, he⟩
      · (simp only [schemaToJson, he]; exact ⟨_, _, rfl, fun _ h => h⟩)
      · (simp only [schemaToJson, he]; exact ⟨_, _, rfl, fun _ h => List.mem_cons_of_mem _ h⟩)
    | fixed nm ns doc sz al ps =>
      rcases preamble_cases "fixed" nm ns doc encl K with ⟨h, he⟩ | ⟨h, obj, he⟩
      · (simp only [schemaToJson, he]; exact ⟨_, _, rfl, fun _ h => h⟩)
      · (simp only [schemaToJson, he]; exact ⟨_, _, rfl, fun _ h => List.mem_cons_of_mem _ h⟩)
    | record nm ns doc fs er al ps =>
      rcases preamble_cases (if er = true then "error" else "record") nm ns doc encl K with
        ⟨h, he⟩ | ⟨h, obj, he⟩
      · (simp only [schemaToJson, he]; exact ⟨_, _, rfl, fun _ h => h⟩)
      · simp only [serBound, Schema.name?, Schema.fullName?, Schema.depth] at hn
        obtain ⟨bs, K2, hma, hsub⟩ := mapAccum_total (l := fs) (K := makeFullName nm ns :: K)
          (f := fieldToJson fun s k => schemaToJson lk n s (ns.or encl) k) (by
            intro f hf K1 hK1
            have hd := Schema.depth_le_depthF hf
            obtain ⟨j, K', h1, h2⟩ := ih f.schema (ns.or encl) K1 (by
              refine Nat.le_trans (serBound_le lk f.schema K1) ?_
              have h3 := unknownCount_anti lk hK1
              have h4 := Nat.mul_le_mul_right (lookupDepth lk + 1) h3
              omega)
            (simp only [fieldToJson, h1]; exact ⟨_, _, rfl, h2⟩))
        (simp only [schemaToJson, he, hma]; exact ⟨_, _, rfl, fun x hx => hsub x (List.mem_cons_of_mem _ hx)⟩)
    | array i ps =>
      simp only [serBound, Schema.name?, Schema.depth] at hn
      obtain ⟨j, K', h1, h2⟩ := sub i encl K (fun _ h => h) (by omega)
      (simp only [schemaToJson, h1]; exact ⟨_, _, rfl, h2⟩)
    | map i ps =>
      simp only [serBound, Schema.name?, Schema.depth] at hn
      obtain ⟨j, K', h1, h2⟩ := sub i encl K (fun _ h => h) (by omega)
      (simp only [schemaToJson, h1]; exact ⟨_, _, rfl, h2⟩)
    | union ts b =>
      simp only [serBound, Schema.name?, Schema.depth] at hn
      obtain ⟨bs, K2, hma, hsub⟩ := mapAccum_total (l := ts) (K := K)
        (f := fun s k => schemaToJson lk n s encl k) (by
          intro s hs K1 hK1
          have hd := Schema.depth_le_depthL hs
          exact sub s encl K1 hK1 (by omega))
      (simp only [schemaToJson, hma]; exact ⟨_, _, rfl, hsub⟩)
    | ref nm ns ps sp =>
      simp only [serBound, Schema.name?, Schema.depth] at hn
      by_cases hk : makeFullName nm ns ∈ K
      · (simp only [schemaToJson, List.contains_iff_mem, hk, if_true]; exact ⟨_, _, rfl, fun _ h => h⟩)
      · cases hl : lk.get? (makeFullName nm ns) with
        | none => (simp only [schemaToJson, List.contains_iff_mem, hk, if_false, hl]; exact ⟨_, _, rfl, fun _ h => h⟩)
        | some t =>
          have hmem := Lookup.mem_of_get? hl
          have hdt : t.depth ≤ lookupDepth lk :=
            Schema.depth_le_depthL (List.mem_map.mpr ⟨_, hmem, rfl⟩)
          have hnamed := hlk _ hmem
          have key : ∀ x, t.name?.isSome → t.fullName? = some x →
              ∃ j K', schemaToJson lk n t encl K = some (j, K') ∧ ∀ x ∈ K, x ∈ K' := by
            intro x hname hx
            by_cases hxK : x ∈ K
            · -- already emitted under its own name: bare reference
              cases n with
              | zero =>
                exact absurd hn (by omega)
              | succ n =>
                cases t with
                | record nm2 ns2 doc2 fs2 er2 al2 ps2 =>
                  simp only [Schema.fullName?, Option.some.injEq] at hx
                  rcases preamble_cases (if er2 = true then "error" else "record") nm2 ns2 doc2 encl K
                    with ⟨h, he⟩ | ⟨h, obj, he⟩
                  · (simp only [schemaToJson, he]; exact ⟨_, _, rfl, fun _ h => h⟩)
                  · exact absurd (hx ▸ hxK) h
                | enum nm2 ns2 doc2 _ _ _ _ =>
                  rcases preamble_cases "enum" nm2 ns2 doc2 encl K with ⟨h, he⟩ | ⟨h, obj, he⟩
                  · (simp only [schemaToJson, he]; exact ⟨_, _, rfl, fun _ h => h⟩)
                  · (simp only [schemaToJson, he]; exact ⟨_, _, rfl, fun _ h => List.mem_cons_of_mem _ h⟩)
                | fixed nm2 ns2 doc2 _ _ _ =>
                  rcases preamble_cases "fixed" nm2 ns2 doc2 encl K with ⟨h, he⟩ | ⟨h, obj, he⟩
                  · (simp only [schemaToJson, he]; exact ⟨_, _, rfl, fun _ h => h⟩)
                  · (simp only [schemaToJson, he]; exact ⟨_, _, rfl, fun _ h => List.mem_cons_of_mem _ h⟩)
                | _ => exact absurd hnamed (by simp [Schema.IsNamed])
            · apply ih
              have hlt := unknownCount_lt lk hmem hx hxK
              have h4 := Nat.mul_le_mul_right (lookupDepth lk + 1) hlt
              have : serBound lk t K = t.depth + unknownCount lk (x :: K) * (lookupDepth lk + 1) := by
                unfold serBound
                rw [hx]
                cases h : t.name? with
                | none => rw [h] at hname; cases hname
                | some y => rfl
              rw [this]
              rw [Nat.succ_mul] at h4
              omega
          have : ∃ j K', schemaToJson lk n t encl K = some (j, K') ∧ ∀ x ∈ K, x ∈ K' := by
            cases t with
            | record nm2 ns2 doc2 fs2 er2 al2 ps2 => exact key _ rfl rfl
            | enum nm2 ns2 doc2 _ _ _ _ => exact key _ rfl rfl
            | fixed nm2 ns2 doc2 _ _ _ => exact key _ rfl rfl
            | _ => exact absurd hnamed (by simp [Schema.IsNamed])
          obtain ⟨j, K', h1, h2⟩ := this
          (simp only [schemaToJson, List.contains_iff_mem, hk, if_false, hl, h1]; exact ⟨_, _, rfl, h2⟩)

end Avdl
