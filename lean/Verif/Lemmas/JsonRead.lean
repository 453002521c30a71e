import Verif.Lemmas.JsonTokens
import Verif.Lemmas.Json
/-!
# Lemmas: the reader accepts the grammar of JSON
-/

namespace Avdl.Lemmas

open Avdl.Spec

/-! ## Objects -/

theorem get?_insertAll_last (ms : List (String × Json)) (k : String) : ∀ m : JMap,
    (JMap.insertAll m ms).get? k = (lastMember k ms).or (m.get? k) := by
  induction ms with
  | nil => intro m; rfl
  | cons kv ms ih =>
    intro m
    obtain ⟨k', v⟩ := kv
    have := ih (JMap.insert k' v m)
    simp only [JMap.insertAll, List.foldl_cons] at this ⊢
    rw [this]
    simp only [lastMember]
    cases lastMember k ms with
    | some w => rfl
    | none =>
      simp only [Option.none_or]
      by_cases h : k' = k
      · subst h; simp [JMap.get?_insert_self]
      · rw [JMap.get?_insert_ne _ _ (fun h' => h h'.symm)]; simp [h]

theorem objectOf_insertAll (ms : List (String × Json)) : ObjectOf ms (JMap.insertAll [] ms) := by
  refine ⟨JMap.Sorted.insertAll JMap.sorted_nil ms, fun k => ?_⟩
  rw [get?_insertAll_last]
  cases lastMember k ms <;> rfl

theorem objectOf_unique {ms : List (String × Json)} {o : JMap} (h : ObjectOf ms o) :
    o = JMap.insertAll [] ms :=
  JMap.Sorted.ext h.1 (objectOf_insertAll ms).1 fun k => by
    rw [h.2 k, (objectOf_insertAll ms).2 k]

/-! ## White space -/

theorem isJsonSpace_iff (c : Char) : isJsonSpace c = true ↔ c ∈ jsonSpaces := by
  simp [isJsonSpace, jsonSpaces, or_assoc]

theorem skipSpace_of {w cs : List Char} (hw : Spaces w) :
    skipSpace (w ++ cs) = skipSpace cs := by
  induction w with
  | nil => rfl
  | cons c w ih =>
    have h1 := (isJsonSpace_iff c).2 (hw c (by simp))
    have := ih fun x hx => hw x (by simp [hx])
    unfold skipSpace at this ⊢
    simp only [List.cons_append, List.dropWhile_cons, h1, if_true, this]

theorem skipSpace_cons {c : Char} {cs : List Char} (h : c ∉ jsonSpaces) :
    skipSpace (c :: cs) = c :: cs := by
  have h1 : isJsonSpace c = false := by
    cases hb : isJsonSpace c with
    | false => rfl
    | true => exact absurd ((isJsonSpace_iff c).1 hb) h
  unfold skipSpace
  simp only [List.dropWhile_cons, h1, Bool.false_eq_true, if_false]

theorem skipSpace_all {w : List Char} (hw : Spaces w) : skipSpace w = [] := by
  have := skipSpace_of (cs := []) hw
  rw [List.append_nil] at this
  rw [this]
  rfl

theorem skipSpace_to {w : List Char} {c : Char} {cs : List Char} (hw : Spaces w)
    (h : c ∉ jsonSpaces) : skipSpace (w ++ c :: cs) = c :: cs := by
  rw [skipSpace_of hw, skipSpace_cons h]

theorem spaces_stop {w r : List Char} (hw : Spaces w) (hr : NumStop r) : NumStop (w ++ r) := by
  cases w with
  | nil => exact hr
  | cons c w =>
    intro c' r' he
    cases he
    have := hw c (by simp)
    simp only [jsonSpaces, List.mem_cons, List.not_mem_nil, or_false] at this
    rcases this with rfl | rfl | rfl | rfl <;> exact ⟨rfl, by decide, by decide, by decide⟩

theorem comma_stop {r : List Char} : NumStop (',' :: r) := by
  intro c r' he; cases he; exact ⟨rfl, by decide, by decide, by decide⟩

theorem bracket_stop {r : List Char} : NumStop (']' :: r) := by
  intro c r' he; cases he; exact ⟨rfl, by decide, by decide, by decide⟩

theorem brace_stop {r : List Char} : NumStop ('}' :: r) := by
  intro c r' he; cases he; exact ⟨rfl, by decide, by decide, by decide⟩

theorem nil_stop : NumStop [] := by intro c r he; cases he

/-! ## First characters -/

theorem digit_cases {c : Char} (h : isJsonDigit c = true) :
    c ∉ jsonSpaces ∧ c ≠ 'n' ∧ c ≠ 't' ∧ c ≠ 'f' ∧ c ≠ '"' ∧ c ≠ '[' ∧ c ≠ '{' ∧ c ≠ ']' := by
  have hx : ∀ x : Char, isJsonDigit x = false → c ≠ x := by
    rintro x hx rfl; rw [hx] at h; cases h
  refine ⟨?_, hx _ rfl, hx _ rfl, hx _ rfl, hx _ rfl, hx _ rfl, hx _ rfl, hx _ rfl⟩
  simp only [jsonSpaces, List.mem_cons, List.not_mem_nil, or_false, not_or]
  exact ⟨hx _ rfl, hx _ rfl, hx _ rfl, hx _ rfl⟩

theorem number_first [JsonFloats] {cs : List Char} {n : JNum} (h : JsonNumber cs n) :
    ∃ c r, cs = c :: r ∧ (c = '-' ∨ isJsonDigit c = true) := by
  cases h with
  | natural h1 _ _ =>
    obtain ⟨c, r, rfl, hc⟩ := someDigits_head h1.1
    exact ⟨c, r, rfl, .inr hc⟩
  | negative => exact ⟨_, _, rfl, .inl rfl⟩
  | @float sign ds frac exp f h1 h2 h3 h4 h5 h6 =>
    obtain ⟨c, r, rfl, hc⟩ := someDigits_head h2.1
    rcases h1 with rfl | rfl
    · exact ⟨_, _, rfl, .inr hc⟩
    · exact ⟨_, _, rfl, .inl rfl⟩

theorem number_first' [JsonFloats] {cs : List Char} {n : JNum} (h : JsonNumber cs n) :
    ∃ c r, cs = c :: r ∧
    c ∉ jsonSpaces ∧ c ≠ 'n' ∧ c ≠ 't' ∧ c ≠ 'f' ∧ c ≠ '"' ∧ c ≠ '[' ∧ c ≠ '{' ∧ c ≠ ']' := by
  obtain ⟨c, r, rfl, hc⟩ := number_first h
  refine ⟨c, r, rfl, ?_⟩
  rcases hc with rfl | hc
  · decide
  · exact digit_cases hc

theorem val_first [JsonFloats] {B : List Char → Prop} {d : Nat} {cs : List Char} {j : Json}
    (h : JsonVal B d cs j) : ∃ c r, cs = c :: r ∧ c ∉ jsonSpaces ∧ c ≠ ']' := by
  cases h with
  | null => exact ⟨'n', _, rfl, by decide⟩
  | true => exact ⟨'t', _, rfl, by decide⟩
  | false => exact ⟨'f', _, rfl, by decide⟩
  | num hn =>
    obtain ⟨c, r, rfl, h⟩ := number_first' hn
    exact ⟨c, r, rfl, h.1, h.2.2.2.2.2.2.2⟩
  | str hs => obtain ⟨e, rfl, -⟩ := hs; exact ⟨'"', _, rfl, by decide⟩
  | arr0 _ => exact ⟨'[', _, rfl, by decide⟩
  | arr _ => exact ⟨'[', _, rfl, by decide⟩
  | obj0 _ => exact ⟨'{', _, rfl, by decide⟩
  | obj _ _ => exact ⟨'{', _, rfl, by decide⟩

theorem vals_first [JsonFloats] {d : Nat} {cs rest : List Char} {l : List Json}
    (h : JsonVals Spaces d cs l) :
    ∃ c r, skipSpace (cs ++ rest) = c :: r ∧ c ≠ ']' := by
  cases h with
  | one hw hv _ =>
    obtain ⟨c, r, rfl, h1, h2⟩ := val_first hv
    exact ⟨c, _, by simp only [List.append_assoc, List.cons_append]; exact skipSpace_to hw h1, h2⟩
  | more hw hv _ _ =>
    obtain ⟨c, r, rfl, h1, h2⟩ := val_first hv
    exact ⟨c, _, by simp only [List.append_assoc, List.cons_append]; exact skipSpace_to hw h1, h2⟩

theorem quote_space : '"' ∉ jsonSpaces := by decide

theorem members_first [JsonFloats] {d : Nat} {cs rest : List Char} {l : List (String × Json)}
    (h : JsonMembers Spaces d cs l) : ∃ r, skipSpace (cs ++ rest) = '"' :: r := by
  cases h with
  | one hw hk _ _ _ _ =>
    obtain ⟨e, rfl, -⟩ := hk
    exact ⟨_, by simp only [List.append_assoc, List.cons_append]; exact skipSpace_to hw quote_space⟩
  | more hw hk _ _ _ _ _ =>
    obtain ⟨e, rfl, -⟩ := hk
    exact ⟨_, by simp only [List.append_assoc, List.cons_append]; exact skipSpace_to hw quote_space⟩

theorem readKey_of {ks rest w1 : List Char} {k : String} {n : Nat} (hk : JsonString ks k)
    (hw : Spaces w1) (hn : ks.length ≤ n) :
    readKey n (ks ++ (w1 ++ ':' :: rest)) = some (k, rest) := by
  obtain ⟨e, rfl, he⟩ := hk
  have := readString_of he (w1 ++ ':' :: rest) n (by simp at hn; omega)
  simp only [List.cons_append, List.append_assoc, List.nil_append, readKey, this,
    skipSpace_to hw (by decide : ':' ∉ jsonSpaces), String.ofList_toList]

/-! ## Values -/

mutual
/-- A value of the grammar is read as what it denotes. -/
theorem readValue_of [JsonFloats] {d : Nat} {cs : List Char} {j : Json}
    (h : JsonVal Spaces d cs j) : ∀ (n : Nat) (w rest : List Char), Spaces w → NumStop rest →
    cs.length ≤ n → readValue n d (w ++ (cs ++ rest)) = some (j, rest) := by
  intro n w rest hw hrest hn
  obtain ⟨c0, r0, hc0, hsp, -⟩ := val_first h
  cases n with
  | zero => rw [hc0] at hn; simp at hn
  | succ n =>
  cases h with
  | null =>
    have : skipSpace (w ++ ("null".toList ++ rest)) = 'n' :: 'u' :: 'l' :: 'l' :: rest :=
      skipSpace_to hw (by decide)
    simp only [readValue, this]
    simp [dropWord]
  | true =>
    have : skipSpace (w ++ ("true".toList ++ rest)) = 't' :: 'r' :: 'u' :: 'e' :: rest :=
      skipSpace_to hw (by decide)
    simp only [readValue, this]
    simp [dropWord]
  | false =>
    have : skipSpace (w ++ ("false".toList ++ rest)) = 'f' :: 'a' :: 'l' :: 's' :: 'e' :: rest :=
      skipSpace_to hw (by decide)
    simp only [readValue, this]
    simp [dropWord]
  | num hnum =>
    obtain ⟨c, r, rfl, h0, h1, h2, h3, h4, h5, h6, -⟩ := number_first' hnum
    have hs : skipSpace (w ++ (c :: r ++ rest)) = c :: (r ++ rest) := skipSpace_to hw h0
    have hr := readNumber_of hnum hrest
    rw [List.cons_append] at hr
    simp only [readValue, hs, h1, h2, h3, h4, h5, h6, if_false, hr, Option.map_some]
  | str hstr =>
    obtain ⟨e, rfl, he⟩ := hstr
    have hs : skipSpace (w ++ ('"' :: e ++ ['"'] ++ rest)) = '"' :: (e ++ '"' :: rest) := by
      simp only [List.cons_append, List.append_assoc, List.nil_append]
      exact skipSpace_to hw quote_space
    have hr := readString_of he rest (n + 1) (by simp at hn; omega)
    simp only [readValue, hs]
    simp [hr]
  | @arr0 d w1 hw1 =>
    have hs : skipSpace (w ++ ('[' :: w1 ++ [']'] ++ rest)) = '[' :: (w1 ++ ']' :: rest) := by
      simp only [List.cons_append, List.append_assoc, List.nil_append]
      exact skipSpace_to hw (by decide)
    have hs2 : skipSpace (w1 ++ ']' :: rest) = ']' :: rest := skipSpace_to hw1 (by decide)
    simp only [readValue, hs, hs2]
    simp
  | @arr d cs l hl =>
    have hs : skipSpace (w ++ ('[' :: cs ++ [']'] ++ rest)) = '[' :: (cs ++ ']' :: rest) := by
      simp only [List.cons_append, List.append_assoc, List.nil_append]
      exact skipSpace_to hw (by decide)
    obtain ⟨c, r, hs2, hc⟩ := vals_first (rest := ']' :: rest) hl
    have hr := readElements_of hl n rest (by simp at hn; omega)
    simp only [readValue, hs, hs2]
    simp [hr, hc]
  | @obj0 d w1 hw1 =>
    have hs : skipSpace (w ++ ('{' :: w1 ++ ['}'] ++ rest)) = '{' :: (w1 ++ '}' :: rest) := by
      simp only [List.cons_append, List.append_assoc, List.nil_append]
      exact skipSpace_to hw (by decide)
    have hs2 : skipSpace (w1 ++ '}' :: rest) = '}' :: rest := skipSpace_to hw1 (by decide)
    simp only [readValue, hs, hs2]
    simp
  | @obj d cs ms o hm ho =>
    have hs : skipSpace (w ++ ('{' :: cs ++ ['}'] ++ rest)) = '{' :: (cs ++ '}' :: rest) := by
      simp only [List.cons_append, List.append_assoc, List.nil_append]
      exact skipSpace_to hw (by decide)
    obtain ⟨r, hs2⟩ := members_first (rest := '}' :: rest) hm
    have hr := readMembers_of hm n rest (by simp at hn; omega)
    have ho := objectOf_unique ho
    simp only [readValue, hs, hs2]
    simp [hr, ho]
/-- The same for the elements of an array. -/
theorem readElements_of [JsonFloats] {d : Nat} {cs : List Char} {l : List Json}
    (h : JsonVals Spaces d cs l) : ∀ (n : Nat) (rest : List Char), cs.length < n →
    readElements n d (cs ++ ']' :: rest) = some (l, rest) := by
  intro n rest hn
  cases n with
  | zero => simp at hn
  | succ n =>
  cases h with
  | @one d w cs w' j hw hv hw' =>
    have hr := readValue_of hv n w (w' ++ ']' :: rest) hw (spaces_stop hw' bracket_stop)
      (by simp at hn; omega)
    simp only [List.append_assoc, readElements, hr, skipSpace_to hw' (by decide : ']' ∉ jsonSpaces)]
  | @more d w cs w' j cs' l hw hv hw' hl =>
    have hr := readValue_of hv n w (w' ++ ',' :: (cs' ++ ']' :: rest)) hw
      (spaces_stop hw' comma_stop) (by simp at hn; omega)
    have hr2 := readElements_of hl n rest (by simp at hn; omega)
    simp only [List.append_assoc, List.cons_append, readElements, hr,
      skipSpace_to hw' (by decide : ',' ∉ jsonSpaces), hr2, Option.map_some]
/-- The same for the members of an object. -/
theorem readMembers_of [JsonFloats] {d : Nat} {cs : List Char} {l : List (String × Json)}
    (h : JsonMembers Spaces d cs l) : ∀ (n : Nat) (rest : List Char), cs.length < n →
    readMembers n d (cs ++ '}' :: rest) = some (l, rest) := by
  intro n rest hn
  cases n with
  | zero => simp at hn
  | succ n =>
  cases h with
  | @one d w ks k w1 w2 cs w' j hw hk hw1 hw2 hv hw' =>
    have hs : skipSpace (w ++ (ks ++ (w1 ++ ':' :: (w2 ++ (cs ++ (w' ++ '}' :: rest)))))) =
        ks ++ (w1 ++ ':' :: (w2 ++ (cs ++ (w' ++ '}' :: rest)))) := by
      obtain ⟨e, rfl, -⟩ := hk
      simp only [List.cons_append]
      exact skipSpace_to hw quote_space
    have hkr := readKey_of (rest := w2 ++ (cs ++ (w' ++ '}' :: rest))) (n := n + 1) hk hw1
      (by simp at hn; omega)
    have hr := readValue_of hv n w2 (w' ++ '}' :: rest) hw2 (spaces_stop hw' brace_stop)
      (by simp at hn; omega)
    simp only [List.append_assoc, List.cons_append, readMembers, hs, hkr, hr,
      skipSpace_to hw' (by decide : '}' ∉ jsonSpaces)]
  | @more d w ks k w1 w2 cs w' j cs' l hw hk hw1 hw2 hv hw' hl =>
    have hs : skipSpace (w ++ (ks ++ (w1 ++ ':' :: (w2 ++ (cs ++ (w' ++ ',' ::
        (cs' ++ '}' :: rest))))))) =
        ks ++ (w1 ++ ':' :: (w2 ++ (cs ++ (w' ++ ',' :: (cs' ++ '}' :: rest))))) := by
      obtain ⟨e, rfl, -⟩ := hk
      simp only [List.cons_append]
      exact skipSpace_to hw quote_space
    have hkr := readKey_of (rest := w2 ++ (cs ++ (w' ++ ',' :: (cs' ++ '}' :: rest)))) (n := n + 1)
      hk hw1 (by simp at hn; omega)
    have hr := readValue_of hv n w2 (w' ++ ',' :: (cs' ++ '}' :: rest)) hw2
      (spaces_stop hw' comma_stop) (by simp at hn; omega)
    have hr2 := readMembers_of hl n rest (by simp at hn; omega)
    simp only [List.append_assoc, List.cons_append, readMembers, hs, hkr, hr,
      skipSpace_to hw' (by decide : ',' ∉ jsonSpaces), hr2, Option.map_some]
end

/-- A text of the grammar is read as the document it denotes. -/
theorem readJsonText_of [JsonFloats] {cs : List Char} {j : Json} (h : JsonText 127 cs j) :
    readJsonText cs = some j := by
  obtain ⟨w, cs, w', hw, hv, hw', rfl⟩ := h
  have hr := readValue_of hv ((w ++ cs ++ w').length + 1) w w' hw
    (by have := spaces_stop hw' nil_stop; simpa using this) (by simp; omega)
  rw [← List.append_assoc] at hr
  simp only [readJsonText, hr, skipSpace_all hw', if_true]

end Avdl.Lemmas
