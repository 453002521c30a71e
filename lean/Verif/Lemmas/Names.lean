import Verif.Spec.WellFormed
/-! Helper lemmas about names. -/

namespace Avdl

theorem rsplitDot_none_iff (l : List Char) : rsplitDot l = none ↔ '.' ∉ l := by
  induction l with
  | nil => simp [rsplitDot]
  | cons c cs ih =>
    simp only [rsplitDot]
    cases h : rsplitDot cs with
    | some ab =>
      have : '.' ∈ cs := by
        apply Decidable.byContradiction
        intro hn
        rw [ih.mpr hn] at h
        cases h
      simp [this]
    | none =>
      have hn : '.' ∉ cs := ih.mp h
      by_cases hc : c = '.'
      · simp [hc]
      · simp [hc, hn]
        exact fun h => hc h.symm

theorem rsplitDot_some {l a b : List Char} (h : rsplitDot l = some (a, b)) :
    l = a ++ '.' :: b ∧ '.' ∉ b := by
  induction l generalizing a b with
  | nil => simp [rsplitDot] at h
  | cons c cs ih =>
    simp only [rsplitDot] at h
    cases h' : rsplitDot cs with
    | some ab =>
      obtain ⟨a', b'⟩ := ab
      rw [h'] at h
      simp only [Option.some.injEq, Prod.mk.injEq] at h
      obtain ⟨rfl, rfl⟩ := h
      obtain ⟨h1, h2⟩ := ih h'
      exact ⟨by rw [h1]; rfl, h2⟩
    | none =>
      rw [h'] at h
      simp only at h
      split at h
      · rename_i hc
        simp only [Option.some.injEq, Prod.mk.injEq] at h
        obtain ⟨rfl, rfl⟩ := h
        exact ⟨by rw [hc]; rfl, (rsplitDot_none_iff _).mp h'⟩
      · cases h

theorem rsplitDot_append {a b : List Char} (hb : '.' ∉ b) :
    rsplitDot (a ++ '.' :: b) = some (a, b) := by
  induction a with
  | nil => simp [rsplitDot, (rsplitDot_none_iff b).mpr hb]
  | cons c cs ih => simp [rsplitDot, ih]

theorem makeFullName_empty (n : String) : makeFullName n (some "") = n := by simp [makeFullName]
theorem makeFullName_none (n : String) : makeFullName n none = n := rfl
theorem makeFullName_ns {n ns : String} (h : ns ≠ "") : makeFullName n (some ns) = ns ++ "." ++ n := by
  simp [makeFullName, h]

theorem dot_toList : (".": String).toList = ['.'] := by decide

theorem makeFullName_toList {n ns : String} (h : ns ≠ "") :
    (makeFullName n (some ns)).toList = ns.toList ++ '.' :: n.toList := by
  rw [makeFullName_ns h, String.toList_append, String.toList_append, dot_toList]
  simp

theorem makeFullName_nsStr (n : String) (ns : Option String) :
    makeFullName n ns = makeFullName n (some (nsStr ns)) := by
  cases ns with
  | none => exact (makeFullName_empty n).symm
  | some _ => rfl

theorem splitFullName_make {n ns : String} (hn : DotFree n) (h : ns ≠ "") :
    splitFullName (makeFullName n (some ns)) = (n, some ns) := by
  unfold splitFullName
  rw [makeFullName_toList h, rsplitDot_append hn]
  simp

theorem splitFullName_dotfree {n : String} (hn : DotFree n) : splitFullName n = (n, none) := by
  unfold splitFullName
  rw [(rsplitDot_none_iff _).mpr hn]

theorem splitFullName_fst_dotfree (s : String) : DotFree (splitFullName s).1 := by
  unfold splitFullName DotFree
  cases h : rsplitDot s.toList with
  | none => exact (rsplitDot_none_iff _).mp h
  | some ab => simpa using (rsplitDot_some h).2

theorem makeFullName_inj {n n' : String} {ns ns' : Option String} (hn : DotFree n) (hn' : DotFree n')
    (h : makeFullName n ns = makeFullName n' ns') : n = n' ∧ nsStr ns = nsStr ns' := by
  rw [makeFullName_nsStr n, makeFullName_nsStr n'] at h
  generalize nsStr ns = a at *
  generalize nsStr ns' = b at *
  by_cases ha : a = "" <;> by_cases hb : b = ""
  · subst ha hb
    simpa [makeFullName] using h
  · subst ha
    have h1 := splitFullName_make hn' hb
    rw [← h, makeFullName_empty, splitFullName_dotfree hn] at h1
    simp at h1
  · subst hb
    have h1 := splitFullName_make hn ha
    rw [h, makeFullName_empty, splitFullName_dotfree hn'] at h1
    simp at h1
  · have h1 := splitFullName_make hn ha
    rw [h, splitFullName_make hn' hb] at h1
    simp only [Prod.mk.injEq, Option.some.injEq] at h1
    exact ⟨h1.1.symm, h1.2.symm⟩

theorem dotFree_of_valid [CharTables] {n : String} (h : isValidAvroName n = true) : DotFree n := by
  unfold isValidAvroName at h
  unfold DotFree
  cases hl : n.toList with
  | nil => simp
  | cons c cs =>
    rw [hl] at h
    simp only [Bool.and_eq_true, Bool.or_eq_true, beq_iff_eq, List.all_eq_true] at h
    obtain ⟨h1, h2⟩ := h
    simp only [List.mem_cons, not_or]
    constructor
    · intro hc
      subst hc
      rcases h1 with h1 | h1
      · have := CharTables.alnum_of_alpha _ h1
        rw [CharTables.dot_not_alnum] at this
        cases this
      · revert h1; decide
    · intro hm
      rcases h2 _ hm with h2 | h2
      · rw [CharTables.dot_not_alnum] at h2
        cases h2
      · revert h2; decide

end Avdl
