import Verif.Text
import Verif.Lemmas.SourceSpans
/-!
# Lemmas on the operations of `str`
-/

namespace Avdl

theorem sliceTo_append (p q : List Char) : sliceTo (p ++ q) (utf8Len p) = some p := by
  induction p with
  | nil => cases q <;> rfl
  | cons c p ih =>
    have hc := c.utf8Size_pos
    obtain ⟨k, hk⟩ : ∃ k, utf8Len (c :: p) = k + 1 := ⟨utf8Len (c :: p) - 1, by
      simp only [utf8Len]; omega⟩
    rw [hk]
    simp only [List.cons_append, sliceTo]
    simp only [utf8Len] at hk
    rw [if_pos (by omega), show k + 1 - c.utf8Size = utf8Len p by omega, ih]
    rfl

theorem sliceFrom_append (p q : List Char) : sliceFrom (p ++ q) (utf8Len p) = some q := by
  induction p with
  | nil => cases q <;> rfl
  | cons c p ih =>
    have hc := c.utf8Size_pos
    obtain ⟨k, hk⟩ : ∃ k, utf8Len (c :: p) = k + 1 := ⟨utf8Len (c :: p) - 1, by
      simp only [utf8Len]; omega⟩
    rw [hk]
    simp only [List.cons_append, sliceFrom]
    simp only [utf8Len] at hk
    rw [if_pos (by omega), show k + 1 - c.utf8Size = utf8Len p by omega, ih]

theorem sliceTo_some {s p : List Char} : ∀ {n : Nat}, sliceTo s n = some p →
    ∃ q, s = p ++ q ∧ utf8Len p = n := by
  induction s generalizing p with
  | nil =>
    intro n h
    cases n with
    | zero => simp only [sliceTo, Option.some.injEq] at h; subst h; exact ⟨[], rfl, rfl⟩
    | succ n => cases h
  | cons c s ih =>
    intro n h
    cases n with
    | zero => simp only [sliceTo, Option.some.injEq] at h; subst h; exact ⟨c :: s, rfl, rfl⟩
    | succ n =>
      simp only [sliceTo] at h
      split at h
      · obtain ⟨p', hp, rfl⟩ := Option.map_eq_some_iff.1 h
        obtain ⟨q, rfl, hl⟩ := ih hp
        exact ⟨q, rfl, by simp only [utf8Len]; omega⟩
      · cases h

theorem sliceFrom_some {s q : List Char} : ∀ {n : Nat}, sliceFrom s n = some q →
    ∃ p, s = p ++ q ∧ utf8Len p = n := by
  induction s with
  | nil =>
    intro n h
    cases n with
    | zero => simp only [sliceFrom, Option.some.injEq] at h; subst h; exact ⟨[], rfl, rfl⟩
    | succ n => cases h
  | cons c s ih =>
    intro n h
    cases n with
    | zero => simp only [sliceFrom, Option.some.injEq] at h; subst h; exact ⟨[], rfl, rfl⟩
    | succ n =>
      simp only [sliceFrom] at h
      split at h
      · obtain ⟨p, rfl, hl⟩ := ih h
        exact ⟨c :: p, rfl, by simp only [utf8Len]; omega⟩
      · cases h

theorem slice_append (p w q : List Char) :
    slice (p ++ w ++ q) (utf8Len p) (utf8Len p + utf8Len w) = some w := by
  unfold slice
  rw [if_pos (by omega), ← utf8Len_append, sliceTo_append]
  exact sliceFrom_append p w

theorem slice_some {s w : List Char} {a b : Nat} (h : slice s a b = some w) :
    ∃ p q, s = p ++ w ++ q ∧ utf8Len p = a ∧ utf8Len p + utf8Len w = b := by
  unfold slice at h
  split at h
  · obtain ⟨x, hx, h'⟩ := Option.bind_eq_some_iff.1 h
    obtain ⟨q, rfl, h1⟩ := sliceTo_some hx
    obtain ⟨p, rfl, h2⟩ := sliceFrom_some h'
    exact ⟨p, q, rfl, h2, by rw [← utf8Len_append]; exact h1⟩
  · cases h

theorem checkedSub_le {a b : Nat} (h : b ≤ a) : checkedSub a b = some (a - b) := if_pos h

theorem isPrefixOf_append {pat s : List Char} (h : pat.isPrefixOf s = true) : ∃ q, s = pat ++ q := by
  obtain ⟨q, hq⟩ := List.isPrefixOf_iff_prefix.1 h
  exact ⟨q, hq.symm⟩

theorem findStr_some {pat s : List Char} : ∀ {n : Nat}, findStr pat s = some n →
    ∃ p q, s = p ++ pat ++ q ∧ utf8Len p = n := by
  induction s with
  | nil =>
    intro n h
    simp only [findStr] at h
    split at h
    · rename_i he
      injection h with h
      subst h
      rw [List.isEmpty_iff] at he
      subst he
      exact ⟨[], [], rfl, rfl⟩
    · cases h
  | cons c s ih =>
    intro n h
    simp only [findStr] at h
    split at h
    · rename_i hp
      injection h with h
      subst h
      obtain ⟨q, hq⟩ := isPrefixOf_append hp
      exact ⟨[], q, by simpa using hq, rfl⟩
    · obtain ⟨k, hk, rfl⟩ := Option.map_eq_some_iff.1 h
      obtain ⟨p, q, rfl, rfl⟩ := ih hk
      exact ⟨c :: p, q, rfl, rfl⟩

theorem findStr_append {pat : List Char} (p q : List Char) :
    ∃ n, findStr pat (p ++ pat ++ q) = some n ∧ n ≤ utf8Len p := by
  induction p with
  | nil =>
    refine ⟨0, ?_, Nat.zero_le _⟩
    cases h : pat ++ q with
    | nil =>
      have : pat = [] := (List.append_eq_nil_iff.1 h).1
      subst this
      simp only [List.nil_append] at h
      subst h
      rfl
    | cons c cs =>
      simp only [List.nil_append, h, findStr]
      rw [if_pos]
      rw [← h]
      exact List.isPrefixOf_iff_prefix.2 ⟨q, rfl⟩
  | cons c p ih =>
    obtain ⟨n, hn, hle⟩ := ih
    simp only [List.cons_append, findStr]
    split
    · exact ⟨0, rfl, Nat.zero_le _⟩
    · refine ⟨c.utf8Size + n, ?_, by simp only [utf8Len]; omega⟩
      rw [hn]
      rfl

theorem containsStr_iff {pat : String} {s : List Char} :
    containsStr pat s = true ↔ ∃ p q, s = p ++ pat.toList ++ q := by
  unfold containsStr
  constructor
  · intro h
    obtain ⟨n, hn⟩ := Option.isSome_iff_exists.1 h
    obtain ⟨p, q, h, _⟩ := findStr_some hn
    exact ⟨p, q, h⟩
  · rintro ⟨p, q, rfl⟩
    obtain ⟨n, hn, _⟩ := findStr_append (pat := pat.toList) p q
    rw [hn]; rfl

theorem findChar_some {f : Char → Bool} {s : List Char} : ∀ {n : Nat}, findChar f s = some n →
    ∃ p c q, s = p ++ c :: q ∧ utf8Len p = n ∧ f c = true ∧ ∀ x ∈ p, f x = false := by
  induction s with
  | nil => intro n h; cases h
  | cons c s ih =>
    intro n h
    simp only [findChar] at h
    split at h
    · rename_i hc
      injection h with h
      subst h
      exact ⟨[], c, s, rfl, rfl, hc, by simp⟩
    · rename_i hc
      obtain ⟨k, hk, rfl⟩ := Option.map_eq_some_iff.1 h
      obtain ⟨p, d, q, rfl, rfl, hd, hp⟩ := ih hk
      refine ⟨c :: p, d, q, rfl, rfl, hd, ?_⟩
      intro x hx
      rcases List.mem_cons.1 hx with rfl | hx
      · simpa using hc
      · exact hp x hx

theorem findChar_none {f : Char → Bool} {s : List Char} (h : findChar f s = none) :
    ∀ x ∈ s, f x = false := by
  induction s with
  | nil => simp
  | cons c s ih =>
    simp only [findChar] at h
    split at h
    · cases h
    · rename_i hc
      intro x hx
      rcases List.mem_cons.1 hx with rfl | hx
      · simpa using hc
      · exact ih (by simpa using h) x hx

theorem findChar_append {f : Char → Bool} {p q : List Char} {c : Char} (hp : ∀ x ∈ p, f x = false)
    (hc : f c = true) : findChar f (p ++ c :: q) = some (utf8Len p) := by
  induction p with
  | nil => simp [findChar, hc, utf8Len]
  | cons d p ih =>
    have hd := hp d (List.mem_cons_self ..)
    simp only [List.cons_append, findChar, hd, Bool.false_eq_true, if_false]
    rw [ih fun x hx => hp x (List.mem_cons_of_mem _ hx)]
    rfl

theorem rfindChar_none {x : Char} {s : List Char} : rfindChar x s = none ↔ x ∉ s := by
  induction s with
  | nil => simp [rfindChar]
  | cons c s ih =>
    simp only [rfindChar]
    split
    · rename_i i hi
      simp only [reduceCtorEq, false_iff, Classical.not_not]
      refine List.mem_cons_of_mem _ ?_
      by_cases hx : x ∈ s
      · exact hx
      · rw [ih.2 hx] at hi; cases hi
    · rename_i hi
      have hx := ih.1 hi
      by_cases hc : c = x
      · simp [hc]
      · simp [hc, hx, Ne.symm hc]

theorem rfindChar_some {x : Char} {s : List Char} : ∀ {n : Nat}, rfindChar x s = some n →
    ∃ p q, s = p ++ x :: q ∧ utf8Len p = n ∧ x ∉ q := by
  induction s with
  | nil => intro n h; cases h
  | cons c s ih =>
    intro n h
    simp only [rfindChar] at h
    split at h
    · rename_i i hi
      injection h with h
      subst h
      obtain ⟨p, q, rfl, rfl, hq⟩ := ih hi
      exact ⟨c :: p, q, rfl, rfl, hq⟩
    · rename_i hi
      split at h
      · rename_i hc
        injection h with h
        subst h
        subst hc
        exact ⟨[], s, rfl, rfl, rfindChar_none.1 hi⟩
      · cases h

theorem matchIndices_mem {pat s : List Char} : ∀ {n : Nat}, n ∈ matchIndices pat s →
    ∃ p q, s = p ++ pat ++ q ∧ utf8Len p = n := by
  induction s with
  | nil => intro n h; cases h
  | cons c s ih =>
    intro n h
    simp only [matchIndices] at h
    rcases List.mem_append.1 h with h | h
    · split at h
      · rename_i hp
        simp only [List.mem_singleton] at h
        subst h
        obtain ⟨q, hq⟩ := isPrefixOf_append hp
        exact ⟨[], q, by simpa using hq, rfl⟩
      · cases h
    · obtain ⟨k, hk, rfl⟩ := List.mem_map.1 h
      obtain ⟨p, q, rfl, rfl⟩ := ih hk
      exact ⟨c :: p, q, rfl, rfl⟩

theorem trimEnd_append (s : List Char) : ∃ ws, s = trimEnd s ++ ws ∧ ∀ c ∈ ws, isWhitespace c = true := by
  refine ⟨(s.reverse.takeWhile isWhitespace).reverse, ?_, ?_⟩
  · unfold trimEnd
    rw [← List.reverse_append, List.takeWhile_append_dropWhile, List.reverse_reverse]
  · intro c hc
    rw [List.mem_reverse] at hc
    have := List.all_takeWhile (l := s.reverse) (p := isWhitespace)
    rw [List.all_eq_true] at this
    exact this c hc

theorem endsWith_append {pat : String} {s : List Char} :
    endsWith pat s = true ↔ ∃ p, s = p ++ pat.toList := by
  unfold endsWith
  rw [List.isSuffixOf_iff_suffix]
  exact ⟨fun ⟨p, h⟩ => ⟨p, h.symm⟩, fun ⟨p, h⟩ => ⟨p, h.symm⟩⟩

theorem startsWith_append {pat : String} {s : List Char} :
    startsWith pat s = true ↔ ∃ q, s = pat.toList ++ q := by
  unfold startsWith
  rw [List.isPrefixOf_iff_prefix]
  exact ⟨fun ⟨q, h⟩ => ⟨q, h.symm⟩, fun ⟨q, h⟩ => ⟨q, h.symm⟩⟩

/-! ## Bytes -/

theorem bytesOf_append (p q : List Char) : bytesOf (p ++ q) = bytesOf p ++ bytesOf q := by
  simp [bytesOf]

theorem bytesOf_cons (c : Char) (s : List Char) :
    bytesOf (c :: s) = String.utf8EncodeChar c ++ bytesOf s := by
  simp [bytesOf]

theorem bytesOf_length (s : List Char) : (bytesOf s).length = utf8Len s := by
  induction s with
  | nil => rfl
  | cons c s ih => simp [bytesOf_cons, utf8Len, ih]

/-- An ASCII character is one byte, with the same number. -/
theorem encode_ascii {c : Char} (h : c.toNat < 128) :
    String.utf8EncodeChar c = [UInt8.ofNat c.toNat] ∧ c.utf8Size = 1 := by
  have hs : c.utf8Size = 1 := by
    rw [Char.utf8Size_eq_one_iff]
    show c.val.toNat ≤ 127
    exact Nat.le_of_lt_succ h
  refine ⟨?_, hs⟩
  rw [String.utf8EncodeChar_eq_singleton hs]
  rfl

/-- All bytes of another character have the high bit. -/
theorem encode_high {c : Char} (h : ¬ c.toNat < 128) :
    ∀ b ∈ String.utf8EncodeChar c, 128 ≤ b := by
  have hor : ∀ x k : UInt8, 128 ≤ k → 128 ≤ x ||| k := by
    intro x k hk
    rw [UInt8.le_iff_toNat_le] at hk ⊢
    rw [UInt8.toNat_or]
    exact Nat.le_trans hk Nat.right_le_or
  have h1 : c.utf8Size ≠ 1 := by
    intro hs
    rw [Char.utf8Size_eq_one_iff] at hs
    exact h (Nat.lt_succ_of_le hs)
  have hpos := c.utf8Size_pos
  have hle := c.utf8Size_le_four
  intro b hb
  have hcases : c.utf8Size = 2 ∨ c.utf8Size = 3 ∨ c.utf8Size = 4 := by omega
  rcases hcases with hs | hs | hs
  · rw [String.utf8EncodeChar_eq_cons_cons hs] at hb
    simp only [List.mem_cons, List.not_mem_nil, or_false] at hb
    rcases hb with rfl | rfl <;> exact hor _ _ (by decide)
  · rw [String.utf8EncodeChar_eq_cons_cons_cons hs] at hb
    simp only [List.mem_cons, List.not_mem_nil, or_false] at hb
    rcases hb with rfl | rfl | rfl <;> exact hor _ _ (by decide)
  · rw [String.utf8EncodeChar_eq_cons_cons_cons_cons hs] at hb
    simp only [List.mem_cons, List.not_mem_nil, or_false] at hb
    rcases hb with rfl | rfl | rfl | rfl <;> exact hor _ _ (by decide)

/-- What `rposition` finds on the bytes of a text, for a property of all bytes beyond ASCII: the end
of the last character with it. -/
theorem rposition_bytes {p : UInt8 → Bool} (hp : ∀ b, 128 ≤ b → p b = true) (s : List Char) :
    match rposition p (bytesOf s) with
    | none => ∀ c ∈ s, c.toNat < 128 ∧ p (UInt8.ofNat c.toNat) = false
    | some i => ∃ x d w, s = x ++ d :: w ∧ utf8Len x + d.utf8Size = i + 1 ∧
        (d.toNat < 128 → p (UInt8.ofNat d.toNat) = true) ∧
        ∀ c ∈ w, c.toNat < 128 ∧ p (UInt8.ofNat c.toNat) = false := by
  have happ : ∀ l r : List UInt8, rposition p (l ++ r) = match rposition p r with
      | some i => some (l.length + i)
      | none => rposition p l := by
    intro l r
    induction l with
    | nil => cases h : rposition p r <;> simp [h, rposition]
    | cons b l ih =>
      simp only [List.cons_append, rposition, ih]
      cases h : rposition p r with
      | none => rfl
      | some i => simp only [List.length_cons, Option.some.injEq]; omega
  have hall : ∀ l : List UInt8, l ≠ [] → (∀ b ∈ l, p b = true) →
      rposition p l = some (l.length - 1) := by
    intro l
    induction l with
    | nil => intro h; exact absurd rfl h
    | cons b l ih =>
      intro _ h
      simp only [rposition]
      by_cases hl : l = []
      · subst hl
        simp [rposition, h b]
      · rw [ih hl fun x hx => h x (List.mem_cons_of_mem _ hx)]
        have := List.length_pos_iff.2 hl
        simp only [List.length_cons, Option.some.injEq]
        omega
  induction s with
  | nil => simp [bytesOf, rposition]
  | cons c s ih =>
    rw [bytesOf_cons, happ]
    cases hr : rposition p (bytesOf s) with
    | some i =>
      rw [hr] at ih
      obtain ⟨x, d, w, rfl, hl, hd, hw⟩ := ih
      refine ⟨c :: x, d, w, rfl, ?_, hd, hw⟩
      simp only [utf8Len, String.length_utf8EncodeChar]
      omega
    | none =>
      rw [hr] at ih
      simp only at ih ⊢
      by_cases hc : c.toNat < 128
      · obtain ⟨he, hs⟩ := encode_ascii hc
        rw [he]
        cases hpc : p (UInt8.ofNat c.toNat) with
        | true =>
          simp only [rposition, hpc, if_true]
          exact ⟨[], c, s, rfl, by simp [utf8Len, hs], fun _ => hpc, ih⟩
        | false =>
          simp only [rposition, hpc, Bool.false_eq_true, if_false]
          intro d hd
          rcases List.mem_cons.1 hd with rfl | hd
          · exact ⟨hc, hpc⟩
          · exact ih d hd
      · rw [hall _ (by simp) fun b hb => hp b (encode_high hc b hb)]
        refine ⟨[], c, s, rfl, ?_, fun h => absurd h hc, ih⟩
        have := c.utf8Size_pos
        simp only [utf8Len, String.length_utf8EncodeChar]
        omega

end Avdl
