import Verif.Spec.LegalName
import Verif.Lemmas.Names
/-! Name validity against its specification. -/

namespace Avdl

open Spec

theorem isValidAvroName_iff [CharTables] (n : String) : isValidAvroName n = true ↔ LegalName n := by
  unfold isValidAvroName LegalName
  cases h : n.toList with
  | nil => simp
  | cons c cs =>
    simp only [Bool.and_eq_true, Bool.or_eq_true, beq_iff_eq, List.all_eq_true, List.cons.injEq]
    constructor
    · exact fun h => ⟨c, cs, ⟨rfl, rfl⟩, h⟩
    · rintro ⟨_, _, ⟨rfl, rfl⟩, h⟩; exact h

/-- Joining with a separator character. -/
def joinChar (sep : Char) : List (List Char) → List Char
  | [] => []
  | [a] => a
  | a :: b :: l => a ++ sep :: joinChar sep (b :: l)

theorem splitOnChar_ne_nil (sep : Char) (l : List Char) : splitOnChar sep l ≠ [] := by
  cases l with
  | nil => simp [splitOnChar]
  | cons c cs =>
    simp only [splitOnChar]
    split
    · simp
    · split <;> simp

theorem joinChar_split (sep : Char) (l : List Char) : joinChar sep (splitOnChar sep l) = l := by
  induction l with
  | nil => rfl
  | cons c cs ih =>
    simp only [splitOnChar]
    split
    · rename_i h; subst h
      cases hs : splitOnChar c cs with
      | nil => exact absurd hs (splitOnChar_ne_nil _ _)
      | cons a as => rw [hs] at ih; simp [joinChar, ih]
    · cases hs : splitOnChar sep cs with
      | nil => exact absurd hs (splitOnChar_ne_nil _ _)
      | cons a as =>
        rw [hs] at ih
        simp only
        cases as with
        | nil => simp only [joinChar] at ih ⊢; rw [ih]
        | cons b bs => simp only [joinChar, List.cons_append] at ih ⊢; rw [ih]

theorem splitOnChar_append (sep : Char) (a l : List Char) (h : sep ∉ a) :
    splitOnChar sep (a ++ sep :: l) = a :: splitOnChar sep l := by
  induction a with
  | nil => simp [splitOnChar]
  | cons c cs ih =>
    simp only [List.mem_cons, not_or] at h
    simp only [List.cons_append, splitOnChar]
    rw [if_neg (Ne.symm h.1), ih h.2]

theorem splitOnChar_self (sep : Char) (a : List Char) (h : sep ∉ a) :
    splitOnChar sep a = [a] := by
  induction a with
  | nil => simp [splitOnChar]
  | cons c cs ih =>
    simp only [List.mem_cons, not_or] at h
    simp only [splitOnChar]
    rw [if_neg (Ne.symm h.1), ih h.2]

theorem split_joinChar (sep : Char) (segs : List (List Char)) (hne : segs ≠ [])
    (h : ∀ s ∈ segs, sep ∉ s) : splitOnChar sep (joinChar sep segs) = segs := by
  induction segs with
  | nil => exact absurd rfl hne
  | cons a l ih =>
    cases l with
    | nil => simp only [joinChar]; exact splitOnChar_self sep a (h a (by simp))
    | cons b l =>
      simp only [joinChar]
      rw [splitOnChar_append sep a _ (h a (by simp)),
        ih (by simp) fun s hs => h s (List.mem_cons_of_mem _ hs)]

theorem intercalate_toList (segs : List String) :
    (String.intercalate "." segs).toList = joinChar '.' (segs.map String.toList) := by
  rw [String.toList_intercalate]
  induction segs with
  | nil => rfl
  | cons a l ih =>
    cases l with
    | nil => simp [joinChar]
    | cons b l =>
      simp only [List.map_cons, List.intercalate_cons_cons, joinChar] at ih ⊢
      rw [ih]
      simp

theorem dotSegments_intercalate (segs : List String) (hne : segs ≠ [])
    (h : ∀ s ∈ segs, DotFree s) : dotSegments (String.intercalate "." segs) = segs := by
  unfold dotSegments
  rw [intercalate_toList, split_joinChar]
  · simp
  · simpa using hne
  · intro s hs
    obtain ⟨t, ht, rfl⟩ := List.mem_map.mp hs
    exact h t ht

theorem intercalate_dotSegments (s : String) : String.intercalate "." (dotSegments s) = s := by
  apply String.toList_injective
  rw [intercalate_toList]
  unfold dotSegments
  rw [List.map_map]
  have : (String.toList ∘ String.ofList) = id := by funext l; simp
  rw [this, List.map_id, joinChar_split]

theorem dotSegments_ne_nil (s : String) : dotSegments s ≠ [] := by
  unfold dotSegments
  simp [splitOnChar_ne_nil]

theorem legalName_dotFree [CharTables] {n : String} (h : LegalName n) : DotFree n :=
  dotFree_of_valid ((isValidAvroName_iff n).mpr h)

theorem validateSchemaName_iff [CharTables] (n : String) (ns : Option String) :
    validateSchemaName n ns = true ↔ LegalName n ∧ LegalNamespace ns := by
  unfold validateSchemaName
  rw [Bool.and_eq_true, isValidAvroName_iff]
  apply and_congr_right
  intro _
  unfold LegalNamespace
  cases ns with
  | none => simp
  | some ns =>
    simp only [Bool.or_eq_true, beq_iff_eq, List.all_eq_true, reduceCtorEq, Option.some.injEq,
      false_or]
    apply or_congr_right
    constructor
    · intro h
      exact ⟨dotSegments ns, dotSegments_ne_nil ns,
        fun s hs => (isValidAvroName_iff s).mp (h s hs), (intercalate_dotSegments ns).symm⟩
    · rintro ⟨segs, hne, hl, rfl⟩ s hs
      rw [dotSegments_intercalate segs hne fun s hs => legalName_dotFree (hl s hs)] at hs
      exact (isValidAvroName_iff s).mpr (hl s hs)

end Avdl
