import Verif.Suggest
import Verif.Spec.Edit
/-!
# Lemmas about edit distances
-/

namespace Avdl
open Spec

/-- The recursive edit distance. -/
def lev : List Char → List Char → Nat
  | [], b => b.length
  | _ :: a, [] => a.length + 1
  | c :: a, d :: b =>
      min (min (lev a b + if c = d then 0 else 1) (lev a (d :: b) + 1)) (lev (c :: a) b + 1)
termination_by a b => a.length + b.length

theorem lev_nil_left (b : List Char) : lev [] b = b.length := by simp [lev]
theorem lev_nil_right (a : List Char) : lev a [] = a.length := by cases a <;> simp [lev]
theorem lev_cons (c d : Char) (a b : List Char) : lev (c :: a) (d :: b) =
    min (min (lev a b + if c = d then 0 else 1) (lev a (d :: b) + 1)) (lev (c :: a) b + 1) := by
  rw [lev]

theorem lev_cons_left (c : Char) (s u : List Char) : lev (c :: s) u ≤ lev s u + 1 := by
  cases u with
  | nil => simp [lev_nil_right]
  | cons d u => rw [lev_cons]; omega

theorem lev_cons_right (d : Char) (s u : List Char) : lev s (d :: u) ≤ lev s u + 1 := by
  cases s with
  | nil => simp [lev_nil_left]
  | cons c s => rw [lev_cons]; omega

theorem lev_tail_left (c : Char) (s u : List Char) : lev s u ≤ lev (c :: s) u + 1 := by
  induction u with
  | nil => simp [lev_nil_right]; omega
  | cons d u ih =>
    rw [lev_cons]
    have h1 := lev_cons_right d s u
    split <;> omega

theorem lev_replace (c d : Char) (s u : List Char) : lev (c :: s) u ≤ lev (d :: s) u + 1 := by
  induction u with
  | nil => simp [lev_nil_right]
  | cons e u ih =>
    rw [lev_cons, lev_cons]
    split <;> split <;> omega

theorem lev_congr {s t : List Char} (h : ∀ u, lev s u ≤ lev t u + 1) (c : Char) :
    ∀ u, lev (c :: s) u ≤ lev (c :: t) u + 1 := by
  intro u
  induction u with
  | nil => have := h []; simp only [lev_nil_right, List.length_cons] at this ⊢; omega
  | cons d u ih =>
    have h1 := h u
    have h2 := h (d :: u)
    rw [lev_cons, lev_cons]
    split <;> omega

theorem lev_prefix {s t : List Char} (h : ∀ u, lev s u ≤ lev t u + 1) (x : List Char) :
    ∀ u, lev (x ++ s) u ≤ lev (x ++ t) u + 1 := by
  induction x with
  | nil => exact h
  | cons c x ih => exact lev_congr ih c

theorem lev_edit {s t : List Char} (h : Edit s t) (u : List Char) : lev s u ≤ lev t u + 1 := by
  cases h with
  | insert x y c => exact lev_prefix (lev_tail_left c y) x u
  | delete x y c => exact lev_prefix (lev_cons_left c y) x u
  | replace x y c d => exact lev_prefix (lev_replace c d y) x u

theorem lev_self (a : List Char) : lev a a = 0 := by
  induction a with
  | nil => simp [lev_nil_left]
  | cons c a ih => rw [lev_cons, ih]; simp

theorem lev_le {a b : List Char} {n : Nat} (h : Edits a b n) : lev a b ≤ n := by
  induction h with
  | done a => simp [lev_self]
  | step he _ ih => have := lev_edit he; exact Nat.le_trans (this _) (by omega)

theorem Spec.Edit.cons {a b : List Char} (h : Edit a b) (c : Char) : Edit (c :: a) (c :: b) := by
  cases h with
  | insert x y d => exact .insert (c :: x) y d
  | delete x y d => exact .delete (c :: x) y d
  | replace x y d e => exact .replace (c :: x) y d e

theorem Spec.Edits.cons {a b : List Char} {n : Nat} (h : Edits a b n) (c : Char) :
    Edits (c :: a) (c :: b) n := by
  induction h with
  | done a => exact .done _
  | step he _ ih => exact .step (he.cons c) ih

theorem Spec.Edits.snoc {a b c : List Char} {n : Nat} (h : Edits a b n) (he : Edit b c) :
    Edits a c (n + 1) := by
  induction h with
  | done a => exact .step he (.done _)
  | step h1 _ ih => exact .step h1 (ih he)

theorem edits_insert_all (b : List Char) : Edits [] b b.length := by
  induction b with
  | nil => exact .done _
  | cons c b ih => exact ih.snoc (.insert [] b c)

theorem edits_delete_all (a : List Char) : Edits a [] a.length := by
  induction a with
  | nil => exact .done _
  | cons c a ih => exact .step (.delete [] a c) ih

theorem edits_lev : (a b : List Char) → Edits a b (lev a b)
  | [], b => by rw [lev_nil_left]; exact edits_insert_all b
  | c :: a, [] => by rw [lev_nil_right]; exact edits_delete_all (c :: a)
  | c :: a, d :: b => by
      have h1 := edits_lev a b
      have h2 := edits_lev a (d :: b)
      have h3 := edits_lev (c :: a) b
      have e2 : Edits (c :: a) (d :: b) (lev a (d :: b) + 1) := .step (.delete [] a c) h2
      have e3 : Edits (c :: a) (d :: b) (lev (c :: a) b + 1) := h3.snoc (.insert [] b d)
      have e1 : Edits (c :: a) (d :: b) (lev a b + if c = d then 0 else 1) := by
        split
        · rename_i h; subst h; exact h1.cons c
        · exact .step (.replace [] a c d) (h1.cons d)
      rw [lev_cons]
      rcases Nat.le_total (lev a b + if c = d then 0 else 1) (lev a (d :: b) + 1) with h | h
      · rw [Nat.min_eq_left h]
        rcases Nat.le_total (lev a b + if c = d then 0 else 1) (lev (c :: a) b + 1) with h' | h'
        · rw [Nat.min_eq_left h']; exact e1
        · rw [Nat.min_eq_right h']; exact e3
      · rw [Nat.min_eq_right h]
        rcases Nat.le_total (lev a (d :: b) + 1) (lev (c :: a) b + 1) with h' | h'
        · rw [Nat.min_eq_left h']; exact e2
        · rw [Nat.min_eq_right h']; exact e3
termination_by a b => a.length + b.length

theorem Spec.Edit.reverse {a b : List Char} (h : Edit a b) : Edit a.reverse b.reverse := by
  cases h with
  | insert x y c => simpa using Edit.insert y.reverse x.reverse c
  | delete x y c => simpa using Edit.delete y.reverse x.reverse c
  | replace x y c d => simpa using Edit.replace y.reverse x.reverse c d

theorem Spec.Edits.reverse {a b : List Char} {n : Nat} (h : Edits a b n) :
    Edits a.reverse b.reverse n := by
  induction h with
  | done a => exact .done _
  | step he _ ih => exact .step he.reverse ih

theorem distance_lev_reverse (a b : List Char) : Distance a b (lev a.reverse b.reverse) := by
  refine ⟨by simpa using (edits_lev a.reverse b.reverse).reverse, fun m h => lev_le h.reverse⟩

theorem Spec.Distance.unique {a b : List Char} {m n : Nat} (h : Distance a b m)
    (h' : Distance a b n) : m = n :=
  Nat.le_antisymm (h.2 n h'.1) (h'.2 m h.1)

theorem edits_zero {a b : List Char} (h : Edits a b 0) : a = b := by
  cases h; rfl

/-! ### The rows -/

/-- The rest of a row: distances to longer and longer (reversed) prefixes of `b`. -/
def rowTail (as : List Char) : List Char → List Char → List Nat
  | _, [] => []
  | pre, c :: bs => lev as (c :: pre) :: rowTail as (c :: pre) bs

theorem rowTail_length (as pre bs : List Char) : (rowTail as pre bs).length = bs.length := by
  induction bs generalizing pre with
  | nil => rfl
  | cons c bs ih => simp [rowTail, ih]

theorem levInner_eq (ca : Char) (as bs : List Char) : ∀ (pre : List Char) (old : List Nat),
    old.length = bs.length →
    levInner ca bs (lev as pre :: rowTail as pre bs) (lev (ca :: as) pre) old =
      some (rowTail (ca :: as) pre bs) := by
  induction bs with
  | nil =>
    intro pre old h
    simp only [List.length_nil, List.length_eq_zero_iff] at h
    subst h
    rfl
  | cons c bs ih =>
    intro pre old h
    cases old with
    | nil => simp at h
    | cons o old =>
      simp only [List.length_cons, Nat.add_right_cancel_iff] at h
      simp only [rowTail, levInner, ← lev_cons, ih (c :: pre) old h, Option.map_some]

theorem levRows_eq (b : List Char) : ∀ (a as : List Char) (curr : List Nat),
    curr.length = b.length + 1 →
    levRows b a as.length (lev as [] :: rowTail as [] b) curr =
      some (lev (a.reverse ++ as) [] :: rowTail (a.reverse ++ as) [] b) := by
  intro a
  induction a with
  | nil => intro as curr _; simp [levRows]
  | cons c a ih =>
    intro as curr h
    cases curr with
    | nil => simp at h
    | cons o old =>
      simp only [List.length_cons, Nat.add_right_cancel_iff] at h
      have h1 := levInner_eq c as b [] old h
      rw [lev_nil_right (c :: as), List.length_cons] at h1
      simp only [levRows, h1]
      have h2 := ih (c :: as) (lev as [] :: rowTail as [] b) (by simp [rowTail_length])
      rw [lev_nil_right (c :: as), List.length_cons] at h2
      simpa using h2

theorem rowTail_nil_eq (bs : List Char) : ∀ pre : List Char,
    rowTail [] pre bs = (List.range' (pre.length + 1) bs.length) := by
  induction bs with
  | nil => intro pre; rfl
  | cons c bs ih => intro pre; simp [rowTail, lev_nil_left, ih, List.range'_succ]

theorem rowTail_last (as bs : List Char) : ∀ pre : List Char,
    (lev as pre :: rowTail as pre bs)[bs.length]? = some (lev as (bs.reverse ++ pre)) := by
  induction bs with
  | nil => intro pre; simp [rowTail]
  | cons c bs ih =>
    intro pre
    simp only [rowTail, List.length_cons, List.getElem?_cons_succ]
    simpa using ih (c :: pre)

theorem utf8Len_ascii {s : List Char} (h : Ascii s) : utf8Len s = s.length := by
  induction s with
  | nil => rfl
  | cons c s ih =>
    have hc : c.utf8Size = 1 := by
      have := h c (by simp)
      have h2 : c.val ≤ 127 := by
        simp only [Char.toNat] at this
        exact UInt32.le_iff_toNat_le.2 (by simpa using Nat.le_of_lt_succ this)
      simp [Char.utf8Size, h2]
    simp only [utf8Len, hc, List.length_cons, ih fun x hx => h x (by simp [hx])]
    omega

theorem utf8Len_pos (c : Char) (s : List Char) : 0 < utf8Len (c :: s) := by
  have := Char.utf8Size_pos c
  simp only [utf8Len]; omega

theorem length_le_utf8Len (s : List Char) : s.length ≤ utf8Len s := by
  induction s with
  | nil => simp
  | cons c s ih =>
    have := Char.utf8Size_pos c
    simp only [utf8Len, List.length_cons]; omega

theorem utf8Len_eq_zero {s : List Char} : utf8Len s = 0 ↔ s = [] := by
  cases s with
  | nil => simp [utf8Len]
  | cons c s => have := utf8Len_pos c s; simp; omega

theorem levenshtein_eq {a b : List Char} (hb : Ascii b) (hne : b ≠ [] ∨ Ascii a) :
    levenshtein a b = some (lev a.reverse b.reverse) := by
  unfold levenshtein
  split
  · rename_i h
    rw [utf8Len_eq_zero] at h
    subst h
    simp [lev_nil_left, utf8Len_ascii hb]
  · split
    · rename_i h
      rw [utf8Len_eq_zero] at h
      subst h
      have ha : Ascii a := by rcases hne with h | h; exact absurd rfl h; exact h
      simp [lev_nil_right, utf8Len_ascii ha]
    · have h0 : List.range (utf8Len b + 1) = lev [] [] :: rowTail [] [] b := by
        rw [utf8Len_ascii hb, rowTail_nil_eq, lev_nil_left, List.range_eq_range',
          List.range'_succ]
        rfl
      have h1 := levRows_eq b a [] (List.replicate (utf8Len b + 1) 0)
        (by simp [utf8Len_ascii hb])
      simp only [List.length_nil, List.append_nil] at h1
      rw [h0, h1]
      simp only [utf8Len_ascii hb]
      have h2 := rowTail_last a.reverse b []
      simpa using h2

/-! ### No index out of bounds -/

theorem levInner_some (ca : Char) (bs : List Char) : ∀ (prev : List Nat) (left : Nat)
    (old : List Nat), bs.length + 1 ≤ prev.length → bs.length ≤ old.length →
    ∃ row, levInner ca bs prev left old = some row ∧ row.length = old.length := by
  induction bs with
  | nil => intro prev left old _ _; exact ⟨old, by simp [levInner], rfl⟩
  | cons c bs ih =>
    intro prev left old h1 h2
    match prev, old with
    | p0 :: p1 :: prev, _ :: old =>
      simp only [List.length_cons] at h1 h2
      obtain ⟨row, hr, hl⟩ := ih (p1 :: prev)
        (min (min (p0 + if ca = c then 0 else 1) (p1 + 1)) (left + 1)) old
        (by simp only [List.length_cons]; omega) (by omega)
      exact ⟨_ :: row, by simp only [levInner, hr, Option.map_some]; rfl, by simp [hl]⟩
    | [], _ => simp at h1
    | [_], _ => simp at h1
    | _ :: _ :: _, [] => simp at h2

theorem levRows_some (b : List Char) : ∀ (a : List Char) (i : Nat) (prev curr : List Nat),
    prev.length = utf8Len b + 1 → curr.length = utf8Len b + 1 →
    ∃ row, levRows b a i prev curr = some row ∧ row.length = utf8Len b + 1 := by
  intro a
  induction a with
  | nil => intro i prev curr h _; exact ⟨prev, rfl, h⟩
  | cons c a ih =>
    intro i prev curr h1 h2
    have hb := length_le_utf8Len b
    cases curr with
    | nil => simp at h2
    | cons o old =>
      simp only [List.length_cons] at h2
      obtain ⟨row, hr, hl⟩ := levInner_some c b prev (i + 1) old (by omega) (by omega)
      simp only [levRows, hr]
      exact ih (i + 1) ((i + 1) :: row) prev (by simp only [List.length_cons]; omega) h1

theorem levenshtein_some (a b : List Char) : ∃ n, levenshtein a b = some n := by
  unfold levenshtein
  split
  · exact ⟨_, rfl⟩
  · split
    · exact ⟨_, rfl⟩
    · obtain ⟨row, hr, hl⟩ := levRows_some b a 0 (List.range (utf8Len b + 1))
        (List.replicate (utf8Len b + 1) 0) (by simp) (by simp)
      simp only [hr]
      exact ⟨_, List.getElem?_eq_getElem (by omega)⟩

end Avdl
