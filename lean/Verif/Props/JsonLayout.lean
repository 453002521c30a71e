import Verif.Spec.JsonLayout
import Verif.Props.JsonText
/-!
# C75: the layout of the written text
-/

namespace Avdl.Props
open Spec Lemmas

/-- No line break. -/
def OneLine (cs : List Char) : Prop := '\n' ∉ cs

/-- The characters of a text moved to the right. -/
def moveChars (cs : List Char) : List Char :=
  cs.flatMap fun c => if c = '\n' then ['\n', ' ', ' '] else [c]

theorem moveChars_append (a b : List Char) : moveChars (a ++ b) = moveChars a ++ moveChars b := by
  simp [moveChars]

theorem moveChars_cons {c : Char} (h : c ≠ '\n') (a : List Char) :
    moveChars (c :: a) = c :: moveChars a := by
  simp [moveChars, h]

theorem moveChars_nil : moveChars [] = [] := rfl

theorem moveChars_oneLine {a : List Char} (h : OneLine a) : moveChars a = a := by
  induction a with
  | nil => rfl
  | cons c a ih =>
    simp only [OneLine, List.mem_cons, not_or] at h
    rw [moveChars_cons (Ne.symm h.1), ih h.2]

theorem moveChars_newLine (n : Nat) : moveChars (newLine n) = newLine (n + 1) := by
  have h : OneLine (List.replicate (2 * n) ' ') := by
    intro h
    exact absurd (List.eq_of_mem_replicate h) (by decide)
  have e : newLine n = ['\n'] ++ List.replicate (2 * n) ' ' := rfl
  rw [e, moveChars_append, moveChars_oneLine h]
  show '\n' :: ' ' :: ' ' :: List.replicate (2 * n) ' ' = '\n' :: List.replicate (2 * n + 2) ' '
  rw [List.replicate_succ, List.replicate_succ]

theorem digits_oneLine {ds : List Char} {v : Nat} (h : Digits 10 ds v) : OneLine ds := by
  induction h with
  | nil => simp [OneLine]
  | cons h1 _ ih =>
    simp only [OneLine, List.mem_cons, not_or]
    refine ⟨?_, ih⟩
    rintro rfl
    have := (digitVal_iff (r := 10) (by omega)).2 h1
    revert this
    have : digitVal 10 '\n' = none := by decide
    simp [this]

theorem someDigits_oneLine {ds : List Char} (h : SomeDigits ds) : OneLine ds :=
  h.2.elim fun _ => digits_oneLine

theorem OneLine.append {a b : List Char} (ha : OneLine a) (hb : OneLine b) : OneLine (a ++ b) := by
  simp only [OneLine, List.mem_append, not_or]
  exact ⟨ha, hb⟩

theorem OneLine.cons {c : Char} {b : List Char} (hc : c ≠ '\n') (hb : OneLine b) :
    OneLine (c :: b) := by
  simp only [OneLine, List.mem_cons, not_or]
  exact ⟨hc.symm, hb⟩

theorem number_oneLine [JsonFloats] {cs : List Char} {n : JNum} (h : JsonNumber cs n) :
    OneLine cs := by
  cases h with
  | natural _ hd _ => exact digits_oneLine hd
  | negative _ hd _ _ => exact (digits_oneLine hd).cons (by decide)
  | float hs hi hf he _ _ =>
    refine ((OneLine.append ?_ (someDigits_oneLine hi.1)).append ?_).append ?_
    · rcases hs with rfl | rfl <;> simp [OneLine]
    · rcases hf with rfl | ⟨ds, hd, rfl⟩
      · simp [OneLine]
      · exact (someDigits_oneLine hd).cons (by decide)
    · rcases he with rfl | ⟨e, sign, ds, he, hs, hd, rfl⟩
      · simp [OneLine]
      · refine OneLine.append (OneLine.cons ?_ ?_) (someDigits_oneLine hd)
        · rcases he with rfl | rfl <;> decide
        · rcases hs with rfl | rfl | rfl <;> simp [OneLine]

theorem jsonChars_oneLine (s : List Char) : OneLine (s.flatMap escapeJsonChar) := by
  intro h
  obtain ⟨c, -, hc⟩ := List.mem_flatMap.1 h
  have hd : ∀ n, n < 16 → '\n' ≠ hexDigit n := by decide
  unfold escapeJsonChar at hc
  split at hc
  · revert hc; decide
  split at hc
  · revert hc; decide
  split at hc
  · revert hc; decide
  split at hc
  · revert hc; decide
  split at hc
  · revert hc; decide
  split at hc
  · revert hc; decide
  split at hc
  · revert hc; decide
  split at hc
  · simp only [List.mem_cons, List.not_mem_nil, or_false, Char.reduceEq, false_or] at hc
    rcases hc with hc | hc
    · exact hd _ (by omega) hc
    · exact hd _ (by omega) hc
  · simp only [List.mem_cons, List.not_mem_nil, or_false] at hc
    rename_i h1 _ _ _
    exact absurd hc.symm (by assumption)

theorem string_oneLine (s : String) : OneLine (jsonString s) :=
  ((jsonChars_oneLine _).cons (by decide)).append (by simp [OneLine])

mutual
/-- At the next level a document is written as at this one, moved to the right. -/
theorem moved_value [JsonFloats] : ∀ (j : Json) (level : Nat), Storable j →
    moveChars (prettyFrom level j) = prettyFrom (level + 1) j
  | .null, _, _ => rfl
  | .bool b, _, _ => by cases b <;> rfl
  | .num n, _, h => by
      simp only [Storable] at h
      exact moveChars_oneLine (number_oneLine (jsonNumber_ok h))
  | .str s, _, _ => moveChars_oneLine (string_oneLine s)
  | .arr [], _, _ => rfl
  | .arr (x :: l), level, h => by
      simp only [Storable, StorableList] at h
      simp only [prettyFrom, List.cons_append, moveChars_append, moveChars_newLine,
        moveChars_cons (c := '[') (by decide), moved_value x (level + 1) h.1,
        moved_items l (level + 1) h.2]
      rfl
  | .obj [], _, _ => rfl
  | .obj ((k, v) :: m), level, h => by
      simp only [Storable, StorableMap] at h
      simp only [prettyFrom, List.cons_append, moveChars_append, moveChars_newLine,
        moveChars_cons (c := '{') (by decide), moved_value v (level + 1) h.2.1,
        moved_members m (level + 1) h.2.2, moveChars_oneLine (string_oneLine k)]
      rfl
termination_by j => sizeOf j
decreasing_by all_goals (simp_wf; try omega)
/-- The same for the elements of an array. -/
theorem moved_items [JsonFloats] : ∀ (l : List Json) (level : Nat), StorableList l →
    moveChars (prettyItems level l) = prettyItems (level + 1) l
  | [], _, _ => rfl
  | x :: l, level, h => by
      simp only [StorableList] at h
      simp only [prettyItems, List.cons_append, moveChars_append, moveChars_newLine,
        moveChars_cons (c := ',') (by decide), moved_value x level h.1, moved_items l level h.2]
termination_by l => sizeOf l
decreasing_by all_goals (simp_wf; try omega)
/-- The same for the members of an object. -/
theorem moved_members [JsonFloats] : ∀ (m : List (String × Json)) (level : Nat), StorableMap m →
    moveChars (prettyMembers level m) = prettyMembers (level + 1) m
  | [], _, _ => rfl
  | (k, v) :: m, level, h => by
      simp only [StorableMap] at h
      simp only [prettyMembers, List.cons_append, moveChars_append, moveChars_newLine,
        moveChars_cons (c := ',') (by decide), moved_value v level h.1, moved_members m level h.2,
        moveChars_oneLine (string_oneLine k)]
      rfl
termination_by m => sizeOf m
decreasing_by all_goals (simp_wf; try omega)
end

/-! ## The property -/

theorem toList_moved (t : String) : (moved t).toList = moveChars t.toList := by
  simp [moved, moveChars]

theorem toList_pretty [JsonFloats] (j : Json) : (prettyJson j).toList = prettyFrom 0 j := by
  simp [prettyJson]

theorem toList_lines (t : String) (ts : List String) :
    (lines (t :: ts)).toList = newLine 1 ++ moveChars t.toList ++
      ts.flatMap (fun u => ',' :: newLine 1 ++ moveChars u.toList) := by
  have e1 : ("\n  " : String).toList = newLine 1 := by decide
  have ec : ("," : String).toList = [','] := by decide
  induction ts generalizing t with
  | nil => simp only [lines, String.toList_append, toList_moved, e1, List.flatMap_nil,
      List.append_nil]
  | cons u ts ih =>
    simp only [lines, String.toList_append, toList_moved, e1, ec, ih, List.flatMap_cons,
      List.append_assoc, List.cons_append, List.nil_append]

theorem toList_bracketed (o c : String) (t : String) (ts : List String) :
    (bracketed o c (t :: ts)).toList = o.toList ++ newLine 1 ++ moveChars t.toList ++
      ts.flatMap (fun u => ',' :: newLine 1 ++ moveChars u.toList) ++ newLine 0 ++ c.toList := by
  have e0 : ("\n" : String).toList = newLine 0 := by decide
  simp only [bracketed, String.toList_append, toList_lines, e0, List.append_assoc]

theorem items_parts [JsonFloats] (l : List Json) (h : StorableList l) :
    (l.map prettyJson).flatMap (fun u => ',' :: newLine 1 ++ moveChars u.toList) =
      prettyItems 1 l := by
  induction l with
  | nil => rfl
  | cons x l ih =>
    simp only [StorableList] at h
    simp only [List.map_cons, List.flatMap_cons, ih h.2, toList_pretty, moved_value x 0 h.1,
      prettyItems]

/-- A member of an object, on its own. -/
def memberText [JsonFloats] (kv : String × Json) : String :=
  prettyJson (.str kv.1) ++ ": " ++ prettyJson kv.2

theorem toList_memberText [JsonFloats] (k : String) (v : Json) (h : Storable v) :
    moveChars (memberText (k, v)).toList = jsonString k ++ [':', ' '] ++ prettyFrom 1 v := by
  have e : (": " : String).toList = [':', ' '] := by decide
  simp only [memberText, String.toList_append, toList_pretty, e, moveChars_append,
    moved_value v 0 h]
  rw [show prettyFrom 0 (.str k) = jsonString k from by simp only [prettyFrom],
    moveChars_oneLine (string_oneLine k)]
  rfl

theorem members_parts [JsonFloats] (m : List (String × Json)) (h : StorableMap m) :
    (m.map memberText).flatMap (fun u => ',' :: newLine 1 ++ moveChars u.toList) =
      prettyMembers 1 m := by
  induction m with
  | nil => rfl
  | cons kv m ih =>
    obtain ⟨k, v⟩ := kv
    simp only [StorableMap] at h
    simp only [List.map_cons, List.flatMap_cons, ih h.2, toList_memberText k v h.1, prettyMembers]
    simp

/-- An array that is not empty is written with each element on lines of its own: the text of the
element, moved to the right by two. -/
theorem C75_array [JsonFloats] (l : List Json) (hl : l ≠ []) (h : Storable (.arr l)) :
    prettyJson (.arr l) = bracketed "[" "]" (l.map prettyJson) := by
  obtain ⟨x, l, rfl⟩ := List.exists_cons_of_ne_nil hl
  simp only [Storable, StorableList] at h
  apply String.toList_inj.1
  rw [toList_pretty, List.map_cons, toList_bracketed, items_parts l h.2, toList_pretty,
    moved_value x 0 h.1]
  simp [prettyFrom]

/-- An object that is not empty is written with each member on lines of its own: its name, a colon
and the text of its value, moved to the right by two.  The members are in the order of their names. -/
theorem C75_object [JsonFloats] (m : List (String × Json)) (hm : m ≠ [])
    (h : Storable (.obj m)) :
    prettyJson (.obj m) =
        bracketed "{" "}" (m.map fun kv => prettyJson (.str kv.1) ++ ": " ++ prettyJson kv.2) ∧
      (m.map Prod.fst).Pairwise (· < ·) := by
  refine ⟨?_, ?_⟩
  · obtain ⟨⟨k, v⟩, m, rfl⟩ := List.exists_cons_of_ne_nil hm
    simp only [Storable, StorableMap] at h
    apply String.toList_inj.1
    show _ = (bracketed "{" "}" (((k, v) :: m).map memberText)).toList
    rw [toList_pretty, List.map_cons, toList_bracketed, members_parts m h.2.2,
      toList_memberText k v h.2.1]
    simp [prettyFrom]
  · simp only [Storable] at h
    exact List.pairwise_map.2 h.1

/-- Everything else is written on one line. -/
theorem C75_one_line [JsonFloats] (j : Json) (h : Storable j)
    (ha : ∀ l, j = .arr l → l = []) (ho : ∀ m, j = .obj m → m = []) :
    '\n' ∉ (prettyJson j).toList ∧
      (∀ l, j = .arr l → prettyJson j = "[]") ∧ (∀ m, j = .obj m → prettyJson j = "{}") := by
  refine ⟨?_, ?_, ?_⟩
  · rw [toList_pretty]
    cases j with
    | null => simp [prettyFrom]
    | bool b => cases b <;> simp [prettyFrom]
    | num n =>
      simp only [Storable] at h
      simp only [prettyFrom]
      exact number_oneLine (jsonNumber_ok h)
    | str s => simp only [prettyFrom]; exact string_oneLine s
    | arr l => rw [ha l rfl]; simp [prettyFrom]
    | obj m => rw [ho m rfl]; simp [prettyFrom]
  · rintro l rfl
    rw [ha l rfl]
    apply String.toList_inj.1
    rw [toList_pretty]
    simp [prettyFrom]
  · rintro m rfl
    rw [ho m rfl]
    apply String.toList_inj.1
    rw [toList_pretty]
    simp [prettyFrom]

/-! ## Examples -/

section
attribute [local instance] exJsonFloats

/-- Arrays and objects inside of each other, and an empty object. -/
example : prettyJson exTextDocument = bracketed "{" "}"
    ["\"a\": [\n  -3,\n  -1.5e3,\n  \"\\\"\\u0001\"\n]", "\"b\": {}"] := by
  decide +kernel

example : exTextDocument = .obj [("a", .arr [.num (.int (-3)), .num (.float true 375 2),
    .str "\"\x01"]), ("b", .obj [])] ∧ Storable exTextDocument :=
  ⟨rfl, exTextDocument_ok.1⟩

end

end Avdl.Props
