import Verif.Lemmas.Braces
/-!
# Lemmas for syntax errors: when a mistake is recognised
-/

namespace Avdl
open Spec

theorem wordChar_blank {bq : Bool} {c : Char} (h : wordChar bq c = true) : isWhitespace c = false := by
  have hs : c.toNat < 128 := by
    have := wordChar_size h
    have h2 : c.utf8Size = 1 := this
    rw [Char.utf8Size_eq_one_iff] at h2
    rw [UInt32.le_iff_toNat_le] at h2
    have e : (127 : UInt32).toNat = 127 := rfl
    have e3 : c.toNat = c.val.toNat := rfl
    omega
  have key : ∀ n : Fin 128, ∀ bq : Bool, wordChar bq (Char.ofNat n.val) = true →
      isWhitespace (Char.ofNat n.val) = false := by decide +kernel
  have := key ⟨c.toNat, hs⟩ bq
  simp only [Char.ofNat_toNat] at this
  exact this h

theorem Spec.PlainWord.chars {w : List Char} (h : PlainWord w) (bq : Bool) :
    ∀ c ∈ w, wordChar bq c = true := by
  intro c hc
  unfold wordChar asciiAlnum
  rcases h.2 c hc with h | h <;> simp [h]

theorem Spec.WordEnded.not {s : List Char} (h : WordEnded s) :
    ∀ y c, s = y ++ [c] → wordChar false c = false := by
  intro y c hc
  unfold wordChar asciiAlnum
  simp [h y c hc]

/-- There is only one last word. -/
theorem lastWord_eq {bq : Bool} {b w : List Char} (hne : w ≠ [])
    (hw : ∀ c ∈ w, wordChar bq c = true) (hb : ∀ y c, b = y ++ [c] → wordChar bq c = false) :
    lastWord bq (b ++ w) = some (some (utf8Len b, b, w)) := by
  have hlast : ∀ {c : List Char}, c ≠ [] → ∃ y d, c = y ++ [d] := by
    intro c hc
    exact ⟨c.dropLast, c.getLast hc, (List.dropLast_concat_getLast hc).symm⟩
  obtain ⟨r, hr, h1, h2⟩ := lastWord_ok bq (b ++ w)
  rw [hr]
  cases r with
  | none =>
    obtain ⟨y, d, rfl⟩ := hlast hne
    have := h2 rfl (b ++ y) d (by simp)
    rw [hw d (by simp)] at this
    cases this
  | some x =>
    obtain ⟨n, b', w'⟩ := x
    obtain ⟨hs, hn, hne', hw', hb'⟩ := h1 _ rfl
    simp only at hs hn hne' hw' hb'
    subst hn
    have : b = b' ∧ w = w' := by
      rcases List.append_eq_append_iff.1 hs with ⟨c, hc, hc'⟩ | ⟨c, hc, hc'⟩
      · by_cases h : c = []
        · subst h; simp at hc hc'; exact ⟨hc.symm, hc'⟩
        · exfalso
          obtain ⟨y, d, rfl⟩ := hlast h
          have := hb' (b ++ y) d (by rw [hc]; simp)
          rw [hw d (by rw [hc']; simp)] at this
          cases this
      · by_cases h : c = []
        · subst h; simp at hc hc'; exact ⟨hc, hc'.symm⟩
        · exfalso
          obtain ⟨y, d, rfl⟩ := hlast h
          have := hb (b' ++ y) d (by rw [hc]; simp)
          rw [hw' d (by rw [hc']; simp)] at this
          cases this
    rw [this.1, this.2]

theorem trimEnd_blank {s w : List Char} {d : Char} (hd : isWhitespace d = false)
    (hw : OnlyBlank w) : trimEnd (s ++ [d] ++ w) = s ++ [d] := by
  unfold trimEnd
  rw [List.reverse_append, List.dropWhile_append_of_pos (fun c hc => hw c (List.mem_reverse.1 hc)),
    List.reverse_append, List.reverse_singleton, List.singleton_append, List.dropWhile_cons, hd]
  simp

/-- White space after a word is dropped. -/
theorem trimEnd_word {bq : Bool} {s x w : List Char} (hne : x ≠ [])
    (hx : ∀ c ∈ x, wordChar bq c = true) (hw : OnlyBlank w) : trimEnd (s ++ x ++ w) = s ++ x := by
  have hd := hx _ (List.getLast_mem hne)
  have := trimEnd_blank (s := s ++ x.dropLast) (w := w) (wordChar_blank hd) hw
  rw [List.append_assoc s, List.dropLast_concat_getLast hne] at this
  exact this

theorem endsWith_other {pat : String} {x s : List Char} {z d : Char} (hp : pat.toList = x ++ [z])
    (hd : z ≠ d) : endsWith pat (s ++ [d]) = false := by
  cases h : endsWith pat (s ++ [d]) with
  | false => rfl
  | true =>
    obtain ⟨p, hpp⟩ := endsWith_append.1 h
    rw [hp, ← List.append_assoc] at hpp
    have := (List.append_inj' hpp rfl).2
    simp only [List.cons.injEq, and_true] at this
    exact absurd this.symm hd

theorem endsWith_word {pat : String} {x s w : List Char} {z : Char} {bq : Bool}
    (hp : pat.toList = x ++ [z]) (hz : wordChar bq z = false) (hne : w ≠ [])
    (hw : ∀ c ∈ w, wordChar bq c = true) : endsWith pat (s ++ w) = false := by
  have hd := hw _ (List.getLast_mem hne)
  have := endsWith_other (s := s ++ w.dropLast) (d := w.getLast hne) hp (by
    rintro rfl; rw [hz] at hd; cases hd)
  rw [List.append_assoc, List.dropLast_concat_getLast hne] at this
  exact this

theorem endsWith_self (pat : String) (s : List Char) : endsWith pat (s ++ pat.toList) = true :=
  endsWith_append.2 ⟨s, rfl⟩

theorem matchIndices_first {pat : List Char} (hp : pat ≠ []) : ∀ {a b : List Char},
    ∃ n ns, matchIndices pat (a ++ pat ++ b) = n :: ns ∧ n ≤ utf8Len a := by
  intro a b
  induction a with
  | nil =>
    cases pat with
    | nil => exact absurd rfl hp
    | cons c cs =>
      have : (c :: cs).isPrefixOf (c :: (cs ++ b)) = true := by
        rw [List.isPrefixOf_iff_prefix]
        exact ⟨b, by simp⟩
      simp only [List.nil_append, List.cons_append, matchIndices]
      rw [this]
      exact ⟨0, _, rfl, Nat.zero_le _⟩
  | cons c a ih =>
    obtain ⟨n, ns, h, hle⟩ := ih
    simp only [List.cons_append, matchIndices]
    split
    · exact ⟨0, _, rfl, Nat.zero_le _⟩
    · simp only [List.append_assoc] at h
      simp only [List.append_assoc, List.nil_append]
      rw [h]
      refine ⟨_, _, rfl, ?_⟩
      simp only [utf8Len]
      omega

theorem rfindChar_last {x : Char} {p q : List Char} (h : x ∉ q) :
    rfindChar x (p ++ x :: q) = some (utf8Len p) := by
  induction p with
  | nil =>
    simp only [List.nil_append, rfindChar, rfindChar_none.2 h, if_pos]
    rfl
  | cons c p ih =>
    simp only [List.cons_append, rfindChar, ih]
    simp only [utf8Len]

/-- A text that ends with white space does not end with a word. -/
theorem ended_blank {bq : Bool} {s w : List Char} (hw : OnlyBlank w) (hne : w ≠ []) :
    ∀ y c, s ++ w = y ++ [c] → wordChar bq c = false := by
  intro y c hc
  have hmem : c ∈ w := by
    have h1 := congrArg List.getLast? hc
    rw [List.getLast?_append, List.getLast?_append (l := y),
      List.getLast?_eq_some_getLast hne] at h1
    simp only [List.getLast?_singleton, Option.some_or, Option.some.injEq] at h1
    rw [← h1]
    exact List.getLast_mem hne
  cases hwc : wordChar bq c with
  | false => rfl
  | true =>
    have := wordChar_blank hwc
    rw [hw c hmem] at this
    cases this

theorem identifyConstruct_declaring {s : List Char} {what : String} (h : Declaring s what) :
    identifyConstruct (trimEnd s) = some (some what) := by
  obtain ⟨a, kw, w, name, w', rfl, hkw, ha, hw, hne, hn, hnot, hw'⟩ := h
  simp only [List.mem_cons, List.not_mem_nil, or_false, not_or] at hnot
  obtain ⟨n1, n2, n3, n4, n5⟩ := hnot
  have htrim := trimEnd_word (s := a ++ kw.toList ++ w) hn.1 (hn.chars true) hw'
  have htrim' := trimEnd_word (s := a ++ kw.toList ++ w) (w := []) hn.1 (hn.chars true)
    (fun _ h => by cases h)
  rw [List.append_nil] at htrim'
  unfold identifyConstruct
  rw [htrim, htrim', lastWord_eq hn.1 (hn.chars true) (ended_blank hw hne)]
  simp only [Option.bind_eq_bind, Option.bind_some]
  rw [if_neg n1, if_neg n2, if_neg n3, if_neg n4, if_neg n5]
  have hk : kw.toList ≠ [] ∧ ∀ c ∈ kw.toList, wordChar false c = true := by
    simp only [List.mem_cons, Prod.mk.injEq, List.not_mem_nil, or_false] at hkw
    rcases hkw with ⟨rfl, -⟩ | ⟨rfl, -⟩ | ⟨rfl, -⟩ | ⟨rfl, -⟩ <;> decide
  rw [trimEnd_word hk.1 hk.2 hw, lastWord_eq hk.1 hk.2 ha.not]
  simp only [Option.bind_some]
  simp only [List.mem_cons, Prod.mk.injEq, List.not_mem_nil, or_false] at hkw
  rcases hkw with ⟨rfl, rfl⟩ | ⟨rfl, rfl⟩ | ⟨rfl, rfl⟩ | ⟨rfl, rfl⟩ <;> rfl

end Avdl
