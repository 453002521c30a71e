import Verif.Json
/-! Helper lemmas about JSON maps. -/

namespace Avdl

theorem str_lt_trichotomy (a b : String) : a < b ∨ a = b ∨ b < a := by
  by_cases h : a < b
  · exact .inl h
  · by_cases h' : b < a
    · exact .inr (.inr h')
    · exact .inr (.inl (String.le_antisymm (String.not_lt.mp h') (String.not_lt.mp h)))

namespace JMap

theorem get?_insert_self (m : JMap) (k : String) (v : Json) : (insert k v m).get? k = some v := by
  induction m with
  | nil => simp [insert, get?]
  | cons kv t ih =>
    obtain ⟨k', v'⟩ := kv
    unfold insert
    split
    · simp [get?]
    · split
      · simp [get?]
      · rename_i h _
        simp [get?, Ne.symm h, ih]

theorem get?_insert_ne (m : JMap) {k j : String} (v : Json) (h : j ≠ k) :
    (insert k v m).get? j = m.get? j := by
  induction m with
  | nil => simp [insert, get?, Ne.symm h]
  | cons kv t ih =>
    obtain ⟨k', v'⟩ := kv
    unfold insert
    split
    · rename_i hk
      subst hk
      simp [get?, Ne.symm h]
    · split
      · simp [get?, Ne.symm h]
      · simp [get?, ih]

theorem get?_insert (m : JMap) (k j : String) (v : Json) :
    (insert k v m).get? j = if j = k then some v else m.get? j := by
  split
  · rename_i h; subst h; exact get?_insert_self ..
  · rename_i h; exact get?_insert_ne _ _ h

/-- Keys in strictly increasing order. -/
def Sorted (m : JMap) : Prop := m.Pairwise (fun a b => a.1 < b.1)

theorem mem_insert {m : JMap} {k : String} {v : Json} {x : String × Json}
    (h : x ∈ insert k v m) : x = (k, v) ∨ x ∈ m := by
  induction m with
  | nil => simpa [insert] using h
  | cons kv t ih =>
    obtain ⟨k', v'⟩ := kv
    unfold insert at h
    split at h
    · simp only [List.mem_cons] at h ⊢
      rcases h with h | h
      · exact .inl h
      · exact .inr (.inr h)
    · split at h
      · simpa using h
      · simp only [List.mem_cons] at h ⊢
        rcases h with h | h
        · exact .inr (.inl h)
        · rcases ih h with h | h
          · exact .inl h
          · exact .inr (.inr h)

theorem Sorted.insert {m : JMap} (hm : Sorted m) (k : String) (v : Json) : Sorted (insert k v m) := by
  unfold Sorted at *
  induction m with
  | nil => simp [JMap.insert]
  | cons kv t ih =>
    obtain ⟨k', v'⟩ := kv
    rw [List.pairwise_cons] at hm
    unfold JMap.insert
    split
    · rename_i hk
      subst hk
      exact List.pairwise_cons.mpr hm
    · split
      · rename_i hk
        refine List.pairwise_cons.mpr ⟨?_, List.pairwise_cons.mpr hm⟩
        intro x hx
        rcases List.mem_cons.mp hx with rfl | hx
        · exact hk
        · exact String.lt_trans hk (hm.1 x hx)
      · rename_i hne hnlt
        refine List.pairwise_cons.mpr ⟨?_, ih hm.2⟩
        intro x hx
        rcases mem_insert hx with rfl | hx
        · rcases str_lt_trichotomy k k' with h | h | h
          · exact absurd h hnlt
          · exact absurd h hne
          · exact h
        · exact hm.1 x hx

theorem Sorted.insertAll {m : JMap} (hm : Sorted m) (ps : List (String × Json)) :
    Sorted (m.insertAll ps) := by
  unfold JMap.insertAll
  induction ps generalizing m with
  | nil => exact hm
  | cons p ps ih => exact ih (hm.insert _ _)

theorem sorted_nil : Sorted [] := List.Pairwise.nil

theorem get?_none_of_forall {m : JMap} {k : String} (h : ∀ x ∈ m, x.1 ≠ k) : m.get? k = none := by
  induction m with
  | nil => rfl
  | cons kv t ih =>
    obtain ⟨k', v'⟩ := kv
    have h1 := h (k', v') (by simp)
    simp only at h1
    simp only [get?, h1, if_false]
    exact ih fun x hx => h x (List.mem_cons_of_mem _ hx)

theorem mem_of_get? {m : JMap} {k : String} {v : Json} (h : m.get? k = some v) : (k, v) ∈ m := by
  induction m with
  | nil => simp [get?] at h
  | cons kv t ih =>
    obtain ⟨k', v'⟩ := kv
    simp only [get?] at h
    split at h
    · rename_i hk; subst hk; simp only [Option.some.injEq] at h; subst h; simp
    · exact List.mem_cons_of_mem _ (ih h)

theorem get?_eq_some_of_nodup {m : JMap} (hm : (m.map Prod.fst).Nodup) {k : String} {v : Json}
    (h : (k, v) ∈ m) : m.get? k = some v := by
  induction m with
  | nil => simp at h
  | cons kv t ih =>
    obtain ⟨k', v'⟩ := kv
    simp only [List.map_cons, List.nodup_cons] at hm
    rcases List.mem_cons.mp h with h | h
    · cases h; simp [get?]
    · have : k' ≠ k := by
        rintro rfl
        exact hm.1 (List.mem_map.mpr ⟨_, h, rfl⟩)
      simp [get?, this, ih hm.2 h]

theorem Sorted.nodup {m : JMap} (h : Sorted m) : (m.map Prod.fst).Nodup := by
  unfold Sorted at h
  rw [List.nodup_iff_pairwise_ne, List.pairwise_map]
  refine h.imp ?_
  intro a b hab heq
  rw [heq] at hab
  exact String.lt_irrefl _ hab

/-- A sorted map is determined by its lookups. -/
theorem Sorted.ext {m m' : JMap} (h : Sorted m) (h' : Sorted m')
    (heq : ∀ k, m.get? k = m'.get? k) : m = m' := by
  induction m generalizing m' with
  | nil =>
    cases m' with
    | nil => rfl
    | cons kv t => have := heq kv.1; simp [get?] at this
  | cons kv t ih =>
    cases m' with
    | nil => have := heq kv.1; simp [get?] at this
    | cons kv' t' =>
      obtain ⟨k, v⟩ := kv
      obtain ⟨k', v'⟩ := kv'
      have ht := List.pairwise_cons.mp h
      have ht' := List.pairwise_cons.mp h'
      have hk : k = k' := by
        rcases str_lt_trichotomy k k' with hlt | he | hlt
        · have := heq k
          rw [get?_none_of_forall (m := (k', v') :: t') (k := k)] at this
          · simp [get?] at this
          · intro x hx
            rcases List.mem_cons.mp hx with rfl | hx
            · intro he; exact String.lt_irrefl _ (he ▸ hlt)
            · intro he; exact String.lt_irrefl k (String.lt_trans hlt (he ▸ ht'.1 x hx))
        · exact he
        · have := heq k'
          rw [get?_none_of_forall (m := (k, v) :: t) (k := k')] at this
          · simp [get?] at this
          · intro x hx
            rcases List.mem_cons.mp hx with rfl | hx
            · intro he; exact String.lt_irrefl _ (he ▸ hlt)
            · intro he; exact String.lt_irrefl k' (String.lt_trans hlt (he ▸ ht.1 x hx))
      subst hk
      have hv : v = v' := by have := heq k; simpa [get?] using this
      subst hv
      congr 1
      apply ih ht.2 ht'.2
      intro j
      have := heq j
      simp only [get?] at this
      split at this
      · rename_i hj
        subst hj
        rw [get?_none_of_forall, get?_none_of_forall]
        · intro x hx he; exact String.lt_irrefl k (he ▸ ht'.1 x hx)
        · intro x hx he; exact String.lt_irrefl k (he ▸ ht.1 x hx)
      · exact this

theorem get?_insertAll_of_notin (m : JMap) (ps : List (String × Json)) {k : String}
    (h : ∀ x ∈ ps, x.1 ≠ k) : (m.insertAll ps).get? k = m.get? k := by
  unfold insertAll
  induction ps generalizing m with
  | nil => rfl
  | cons p ps ih =>
    simp only [List.foldl_cons]
    rw [ih _ fun x hx => h x (List.mem_cons_of_mem _ hx)]
    exact get?_insert_ne _ _ fun he => h p (by simp) he.symm

theorem get?_insertAll (m : JMap) (ps : List (String × Json)) (hps : (ps.map Prod.fst).Nodup)
    (k : String) : (m.insertAll ps).get? k = (JMap.get? ps k).or (m.get? k) := by
  induction ps generalizing m with
  | nil => simp [insertAll, get?]
  | cons p ps ih =>
    obtain ⟨j, v⟩ := p
    simp only [List.map_cons, List.nodup_cons] at hps
    have : insertAll m ((j, v) :: ps) = insertAll (insert j v m) ps := rfl
    rw [this, ih _ hps.2, get?_insert]
    by_cases hk : k = j
    · subst hk
      rw [get?_none_of_forall (m := ps)]
      · simp [get?]
      · intro x hx he
        exact hps.1 (List.mem_map.mpr ⟨x, hx, he⟩)
    · simp [hk, get?, Ne.symm hk]

end JMap

theorem Props.get?_perm {p q : Props} (h : p.Perm q) (hp : Props.Wf p) (k : String) :
    JMap.get? p k = JMap.get? q k := by
  have hq : Props.Wf q := (List.Perm.nodup_iff (h.map Prod.fst)).mp hp
  cases hk : JMap.get? p k with
  | some v =>
    exact (JMap.get?_eq_some_of_nodup hq (h.mem_iff.mp (JMap.mem_of_get? hk))).symm
  | none =>
    cases hk' : JMap.get? q k with
    | none => rfl
    | some v =>
      rw [JMap.get?_eq_some_of_nodup hp (h.mem_iff.mpr (JMap.mem_of_get? hk'))] at hk
      cases hk

/-- Inserting the entries of a hash map gives the same sorted map for every iteration order. -/
theorem JMap.insertAll_perm {m : JMap} (hm : JMap.Sorted m) {p q : Props} (h : p.Perm q)
    (hp : Props.Wf p) : m.insertAll p = m.insertAll q := by
  apply (hm.insertAll p).ext (hm.insertAll q)
  intro k
  have hq : Props.Wf q := (List.Perm.nodup_iff (h.map Prod.fst)).mp hp
  rw [JMap.get?_insertAll _ _ hp, JMap.get?_insertAll _ _ hq, Props.get?_perm h hp]

end Avdl
