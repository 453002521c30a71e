import Verif.Spec.Held
import Verif.Reader
import Verif.Lemmas.Json
import Verif.Lemmas.Literals
/-! # JSON values the program can hold -/

namespace Avdl
open Spec

theorem heldList_iff {l : List Json} : HeldList l ↔ ∀ j ∈ l, Held j := by
  induction l with
  | nil => simp [HeldList]
  | cons j l ih => simp [HeldList, ih]

theorem heldMap_iff {m : List (String × Json)} : HeldMap m ↔ ∀ x ∈ m, Held x.2 := by
  induction m with
  | nil => simp [HeldMap]
  | cons x m ih => simp [HeldMap, ih]

theorem held_obj {m : JMap} : Held (.obj m) ↔ JMap.Sorted m ∧ ∀ x ∈ m, Held x.2 := by
  rw [Held, heldMap_iff]; rfl

theorem held_str (s : String) : Held (.str s) := trivial

theorem held_strs (l : List String) : Held (.arr (l.map .str)) := by
  rw [Held, heldList_iff]
  intro j hj
  obtain ⟨s, -, rfl⟩ := List.mem_map.mp hj
  trivial

theorem held_nat {n : Nat} (h : n < 2 ^ 32) : Held (.num (.int n)) := by
  unfold Held
  omega

/-- The entries of a map are values the program can hold. -/
def HeldEntries (m : List (String × Json)) : Prop := ∀ x ∈ m, Held x.2

theorem heldEntries_nil : HeldEntries [] := by intro x hx; cases hx

/-- An object under construction. -/
def HeldObj (m : JMap) : Prop := JMap.Sorted m ∧ HeldEntries m

theorem HeldObj.held {m : JMap} (h : HeldObj m) : Held (.obj m) := held_obj.mpr h

theorem heldObj_nil : HeldObj [] := ⟨JMap.sorted_nil, heldEntries_nil⟩

theorem HeldObj.insert {m : JMap} (h : HeldObj m) (k : String) {v : Json} (hv : Held v) :
    HeldObj (JMap.insert k v m) := by
  refine ⟨h.1.insert k v, fun x hx => ?_⟩
  rcases JMap.mem_insert hx with rfl | hx
  · exact hv
  · exact h.2 x hx

theorem HeldObj.insertAll {m : JMap} (h : HeldObj m) {ps : List (String × Json)}
    (hp : HeldEntries ps) : HeldObj (m.insertAll ps) := by
  unfold JMap.insertAll
  induction ps generalizing m with
  | nil => exact h
  | cons p ps ih =>
    exact ih (h.insert _ (hp p (by simp))) fun x hx => hp x (by simp [hx])

theorem HeldEntries.filter {m : List (String × Json)} (h : HeldEntries m)
    (p : String × Json → Bool) : HeldEntries (m.filter p) :=
  fun x hx => h x (List.mem_filter.mp hx).1

theorem held_get {m : JMap} (h : HeldEntries m) {k : String} {v : Json}
    (hg : JMap.get? m k = some v) : Held v := by
  induction m with
  | nil => cases hg
  | cons x m ih =>
    simp only [JMap.get?] at hg
    split at hg
    · injection hg with hg; subst hg; exact h x (by simp)
    · exact ih (fun y hy => h y (by simp [hy])) hg

/-! ## Values in source files -/

theorem parseIntegerBody_range {cs : List Char} {v : Int} (h : parseIntegerBody cs = some v) :
    -(2 ^ 63) ≤ v ∧ v ≤ 2 ^ 63 := by
  have key : ∀ {r cs v}, i64FromStrRadix r cs = some v → -(2 ^ 63) ≤ v ∧ v < 2 ^ 63 := by
    intro r cs v h
    have := i64_range h
    unfold FitsI64 at this
    omega
  have pos : ∀ {r cs}, i64FromStrRadix r cs = some v → -(2 ^ 63) ≤ v ∧ v ≤ 2 ^ 63 :=
    fun h => by have := key h; omega
  have neg : ∀ {r cs}, (i64FromStrRadix r cs).map (- ·) = some v →
      -(2 ^ 63) ≤ v ∧ v ≤ 2 ^ 63 := by
    intro r cs h
    obtain ⟨u, hu, rfl⟩ := Option.map_eq_some_iff.mp h
    have := key hu
    omega
  unfold parseIntegerBody at h
  split at h
  · exact pos h
  · exact pos h
  · exact neg h
  · exact neg h
  · split at h <;> exact pos h
  · split at h
    · exact pos h
    · exact neg h
  · exact pos h

theorem parseInteger_held {t : String} {i : Int} (h : parseIntegerLiteral t = some i) :
    Held (.num (.int i)) := by
  have := parseIntegerBody_range h
  unfold Held
  omega

section
variable [FloatTables]

mutual
theorem walkJson_held : (v : JVal) → ∀ j, walkJson v = .ok j → Held j
  | .null, j, h | .true, j, h | .false, j, h | .str _, j, h => by
      simp only [walkJson, Except.ok.injEq] at h; subst h; trivial
  | .int text _, j, h => by
      simp only [walkJson] at h
      split at h
      · rename_i i hi
        injection h with h; subst h
        exact parseInteger_held hi
      · cases h
  | .float text _, j, h => by
      simp only [walkJson] at h
      split at h
      · rename_i x hx
        injection h with h; subst h
        unfold parseFloatingPointLiteral at hx
        split at hx <;> cases hx <;> trivial
      · cases h
  | .arr l, j, h => by
      simp only [walkJson] at h
      split at h
      · rename_i js hjs
        injection h with h; subst h
        exact heldList_iff.mpr (walkJsonList_held l js hjs)
      · cases h
  | .obj m, j, h => by
      simp only [walkJson] at h
      split at h
      · rename_i o ho
        injection h with h; subst h
        exact (walkJsonPairs_held m [] o heldObj_nil ho).held
      · cases h
theorem walkJsonList_held : (vs : List JVal) → ∀ js, walkJsonList vs = .ok js → ∀ j ∈ js, Held j
  | [], js, h => by simp only [walkJsonList, Except.ok.injEq] at h; subst h; simp
  | v :: vs, js, h => by
      simp only [walkJsonList] at h
      split at h
      · cases h
      · rename_i j hj
        split at h
        · cases h
        · rename_i js' hjs
          injection h with h; subst h
          intro x hx
          rcases List.mem_cons.mp hx with rfl | hx
          · exact walkJson_held v _ hj
          · exact walkJsonList_held vs js' hjs x hx
theorem walkJsonPairs_held : (ps : List (String × JVal)) → ∀ acc o, HeldObj acc →
    walkJsonPairs acc ps = .ok o → HeldObj o
  | [], acc, o, ha, h => by simp only [walkJsonPairs, Except.ok.injEq] at h; subst h; exact ha
  | (k, v) :: ps, acc, o, ha, h => by
      simp only [walkJsonPairs] at h
      split at h
      · cases h
      · rename_i j hj
        exact walkJsonPairs_held ps _ o (ha.insert _ (walkJson_held v j hj)) h
end

end
end Avdl
