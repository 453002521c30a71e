import Verif.Lemmas.JsonSound
/-!
# Lemmas: what is written is JSON text
-/

namespace Avdl.Lemmas

open Avdl.Spec

/-! ## Strings -/

theorem control_digits : ∀ n, n < 32 →
    digitsFrom 16 0 ['0', '0', hexDigit (n / 16), hexDigit (n % 16)] = some n := by decide

theorem escape_chars (s : List Char) : JsonChars (s.flatMap escapeJsonChar) s := by
  induction s with
  | nil => exact .nil
  | cons c s ih =>
    rw [List.flatMap_cons]
    unfold escapeJsonChar
    repeat' split
    all_goals try subst_vars
    all_goals try exact .escape (by decide) ih
    · rename_i h
      obtain ⟨v, hv, he⟩ := (digitsFrom_iff (by omega) _ 0 c.toNat).1 (control_digits _ h)
      obtain rfl : v = c.toNat := by omega
      have hcu : CodeUnit ['\\', 'u', '0', '0', hexDigit (c.toNat / 16), hexDigit (c.toNat % 16)]
          c.toNat := ⟨_, rfl, hv, rfl⟩
      have := JsonChars.unicode hcu (by unfold High; omega) (by unfold Low; omega) ih
      rwa [← char_of_toNat rfl] at this
    · rename_i h1 h2 _ _ _ _ _ h
      exact .plain h1 h2 (Nat.not_lt.1 h) ih

theorem jsonString_ok (s : String) : JsonString (jsonString s) s :=
  ⟨_, rfl, escape_chars _⟩

/-! ## Numbers -/

theorem digits_snoc {r : Nat} {ds : List Char} {v d : Nat} {c : Char} (h : Digits r ds v)
    (hc : IsDigit r c d) : Digits r (ds ++ [c]) (v * r + d) := by
  induction h with
  | nil =>
    have := Digits.cons (r := r) (cs := []) (v := 0) hc .nil
    simpa using this
  | @cons c' cs d' v' h1 _ ih =>
    have := Digits.cons (r := r) h1 ih
    rw [List.length_append, List.length_singleton, Nat.pow_succ, ← Nat.mul_assoc,
      ← Nat.add_assoc, ← Nat.add_mul] at this
    exact this

theorem digitChar_ok : ∀ d, d < 10 → digitVal 10 d.digitChar = some d := by decide

theorem digitChar_isDigit {d : Nat} (h : d < 10) : IsDigit 10 d.digitChar d :=
  (digitVal_iff (by omega)).1 (digitChar_ok d h)

theorem digitChar_zero : ∀ d, d < 10 → d.digitChar = '0' → d = 0 := by decide

theorem toDigits_ok : ∀ n : Nat, Digits 10 (Nat.toDigits 10 n) n ∧
    ((Nat.toDigits 10 n).head? = some '0' → n = 0) := by
  intro n
  induction n using Nat.strongRecOn with
  | _ n ih =>
    by_cases h : n < 10
    · rw [Nat.toDigits_of_lt_base h]
      refine ⟨?_, fun h0 => digitChar_zero n h (by simpa using h0)⟩
      have := digits_snoc .nil (digitChar_isDigit h)
      simpa using this
    · have hle := Nat.not_lt.1 h
      obtain ⟨h1, h2⟩ := ih (n / 10) (Nat.div_lt_self (by omega) (by omega))
      rw [Nat.toDigits_of_base_le (by omega) hle]
      constructor
      · have := digits_snoc h1 (digitChar_isDigit (Nat.mod_lt n (by omega)))
        rwa [Nat.div_add_mod' n 10] at this
      · intro h0
        have hne : Nat.toDigits 10 (n / 10) ≠ [] := Nat.toDigits_ne_nil
        have := h2 (by
          cases hd : Nat.toDigits 10 (n / 10) with
          | nil => exact absurd hd hne
          | cons c r => rw [hd] at h0; simpa using h0)
        omega

theorem toDigits_int (n : Nat) : IntPart (Nat.toDigits 10 n) := by
  refine ⟨⟨Nat.toDigits_ne_nil, n, (toDigits_ok n).1⟩, fun h => ?_⟩
  rw [(toDigits_ok n).2 h, Nat.toDigits_zero]

theorem jsonNumber_ok [JsonFloats] {n : JNum} (h : Survives n) : JsonNumber (jsonNumber n) n := by
  cases n with
  | int i =>
    obtain ⟨h1, h2⟩ := h
    cases i with
    | ofNat n =>
      have : n < 2 ^ 64 := Int.ofNat_lt.1 h2
      exact .natural (toDigits_int n) (toDigits_ok n).1 this
    | negSucc n =>
      have hn : n + 1 ≤ 2 ^ 63 := by omega
      have := JsonNumber.negative (toDigits_int (n + 1)) (toDigits_ok (n + 1)).1 (by omega) hn
      have he : (if Int.negSucc n < 0 then ['-'] else []) = ['-'] := if_pos (Int.negSucc_lt_zero n)
      simp only [jsonNumber, he]
      exact this
  | float neg m e => exact h

/-! ## Values -/

theorem newLine_spaces (n : Nat) : Spaces (newLine n) := (spaces_replicate _).cons (by decide)

theorem nil_spaces : Spaces [] := by intro c hc; simp at hc

theorem one_space : Spaces [' '] := nil_spaces.cons (by decide)

theorem lastMember_sorted {m : JMap} (h : m.Pairwise fun a b => a.1 < b.1) (k : String) :
    m.get? k = lastMember k m := by
  induction m with
  | nil => rfl
  | cons kv m ih =>
    obtain ⟨k', v⟩ := kv
    have hm := ih (List.Pairwise.of_cons h)
    simp only [JMap.get?, lastMember, ← hm]
    by_cases hk : k' = k
    · subst hk
      have : JMap.get? m k' = none := by
        refine JMap.get?_none_of_forall fun x hx he => ?_
        have := List.rel_of_pairwise_cons h hx
        rw [he] at this
        exact String.lt_irrefl _ this
      simp [this]
    · simp only [hk, if_false]
      cases JMap.get? m k <;> rfl

mutual
/-- A document is written as a text of the grammar that denotes it. -/
theorem pretty_val [JsonFloats] : ∀ (j : Json) (level d : Nat), Storable j → nesting j ≤ d →
    JsonVal Spaces d (prettyFrom level j) j
  | .null, _, _, _, _ => .null
  | .bool b, _, _, _, _ => by
      cases b
      · exact .false
      · exact .true
  | .num n, _, _, h, _ => by
      simp only [Storable] at h
      exact .num (jsonNumber_ok h)
  | .str s, _, _, _, _ => .str (jsonString_ok s)
  | .arr [], _, d, _, hd => by
      simp only [nesting] at hd
      obtain ⟨d, rfl⟩ := Nat.exists_eq_succ_of_ne_zero (n := d) (by omega)
      simp only [prettyFrom]
      exact .arr0 nil_spaces
  | .arr (x :: l), level, d, h, hd => by
      simp only [nesting, nestingList] at hd
      simp only [Storable, StorableList] at h
      obtain ⟨d, rfl⟩ := Nat.exists_eq_succ_of_ne_zero (n := d) (by omega)
      simp only [prettyFrom]
      have := pretty_vals l x (level + 1) d (newLine level) h.1 h.2 (by omega) (by omega)
        (newLine_spaces _)
      have := JsonVal.arr this
      simpa using this
  | .obj [], _, d, _, hd => by
      simp only [nesting] at hd
      obtain ⟨d, rfl⟩ := Nat.exists_eq_succ_of_ne_zero (n := d) (by omega)
      simp only [prettyFrom]
      exact .obj0 nil_spaces
  | .obj ((k, v) :: m), level, d, h, hd => by
      simp only [nesting, nestingMap] at hd
      simp only [Storable, StorableMap] at h
      obtain ⟨d, rfl⟩ := Nat.exists_eq_succ_of_ne_zero (n := d) (by omega)
      simp only [prettyFrom]
      have := pretty_members m k v (level + 1) d (newLine level) h.2.1 h.2.2 (by omega) (by omega)
        (newLine_spaces _)
      have := JsonVal.obj this ⟨h.1, lastMember_sorted h.1⟩
      simpa using this
termination_by j => sizeOf j
decreasing_by all_goals (simp_wf; try omega)
/-- The same for the elements of an array. -/
theorem pretty_vals [JsonFloats] : ∀ (l : List Json) (x : Json) (level d : Nat) (w : List Char),
    Storable x → StorableList l → nesting x ≤ d → nestingList l ≤ d → Spaces w →
    JsonVals Spaces d (newLine level ++ prettyFrom level x ++ prettyItems level l ++ w) (x :: l)
  | [], x, level, d, w, hx, _, hd, _, hw => by
      simp only [prettyItems, List.append_nil]
      exact .one (newLine_spaces _) (pretty_val x level d hx hd) hw
  | y :: l, x, level, d, w, hx, hl, hd, hdl, hw => by
      simp only [nestingList] at hdl
      simp only [StorableList] at hl
      simp only [prettyItems]
      have h1 := pretty_val x level d hx hd
      have h2 := pretty_vals l y level d w hl.1 hl.2 (by omega) (by omega) hw
      have := JsonVals.more (newLine_spaces level) h1 nil_spaces h2
      simpa using this
termination_by l x => sizeOf x + sizeOf l + 1
decreasing_by all_goals (simp_wf; try omega)
/-- The same for the members of an object. -/
theorem pretty_members [JsonFloats] : ∀ (m : List (String × Json)) (k : String) (x : Json)
    (level d : Nat) (w : List Char), Storable x → StorableMap m → nesting x ≤ d →
    nestingMap m ≤ d → Spaces w →
    JsonMembers Spaces d (newLine level ++ jsonString k ++ [':', ' '] ++ prettyFrom level x ++
      prettyMembers level m ++ w) ((k, x) :: m)
  | [], k, x, level, d, w, hx, _, hd, _, hw => by
      have := JsonMembers.one (newLine_spaces level) (jsonString_ok k) nil_spaces one_space
        (pretty_val x level d hx hd) hw
      simpa [prettyMembers] using this
  | (k', y) :: m, k, x, level, d, w, hx, hl, hd, hdl, hw => by
      simp only [nestingMap] at hdl
      simp only [StorableMap] at hl
      have h1 := pretty_val x level d hx hd
      have h2 := pretty_members m k' y level d w hl.1 hl.2 (by omega) (by omega) hw
      have := JsonMembers.more (newLine_spaces level) (jsonString_ok k) nil_spaces one_space h1
        nil_spaces h2
      simpa [prettyMembers] using this
termination_by m _ x => sizeOf x + sizeOf m + 1
decreasing_by all_goals (simp_wf; try omega)
end

/-- Plain JSON is also JSON with comments. -/
theorem spaces_blank {w : List Char} (h : Spaces w) : Blank w := by
  induction w with
  | nil => exact .nil
  | cons c w ih => exact .space (h c (by simp)) (ih fun x hx => h x (by simp [hx]))

mutual
/-- A grammar in which more may stand between tokens accepts more. -/
theorem JsonVal.weaken [JsonFloats] {B B' : List Char → Prop} (hB : ∀ w, B w → B' w) {d : Nat}
    {cs : List Char} {j : Json} (h : JsonVal B d cs j) : JsonVal B' d cs j := by
  cases h with
  | null => exact .null
  | true => exact .true
  | false => exact .false
  | num hn => exact .num hn
  | str hs => exact .str hs
  | arr0 hw => exact .arr0 (hB _ hw)
  | arr hl => exact .arr (JsonVals.weaken hB hl)
  | obj0 hw => exact .obj0 (hB _ hw)
  | obj hm ho => exact .obj (JsonMembers.weaken hB hm) ho
termination_by 2 * cs.length
decreasing_by all_goals (subst_vars; simp only [List.length_append, List.length_cons, List.length_nil]; omega)
/-- The same for the elements of an array. -/
theorem JsonVals.weaken [JsonFloats] {B B' : List Char → Prop} (hB : ∀ w, B w → B' w) {d : Nat}
    {cs : List Char} {l : List Json} (h : JsonVals B d cs l) : JsonVals B' d cs l := by
  cases h with
  | one hw hv hw' => exact .one (hB _ hw) (JsonVal.weaken hB hv) (hB _ hw')
  | more hw hv hw' hl =>
    exact .more (hB _ hw) (JsonVal.weaken hB hv) (hB _ hw') (JsonVals.weaken hB hl)
termination_by 2 * cs.length + 1
decreasing_by all_goals (subst_vars; simp only [List.length_append, List.length_cons]; omega)
/-- The same for the members of an object. -/
theorem JsonMembers.weaken [JsonFloats] {B B' : List Char → Prop} (hB : ∀ w, B w → B' w) {d : Nat}
    {cs : List Char} {l : List (String × Json)} (h : JsonMembers B d cs l) :
    JsonMembers B' d cs l := by
  cases h with
  | one hw hk hw1 hw2 hv hw' =>
    exact .one (hB _ hw) hk (hB _ hw1) (hB _ hw2) (JsonVal.weaken hB hv) (hB _ hw')
  | more hw hk hw1 hw2 hv hw' hl =>
    exact .more (hB _ hw) hk (hB _ hw1) (hB _ hw2) (JsonVal.weaken hB hv) (hB _ hw')
      (JsonMembers.weaken hB hl)
termination_by 2 * cs.length + 1
decreasing_by all_goals (subst_vars; simp only [List.length_append, List.length_cons]; omega)
end

mutual
/-- A larger bound on the nesting. -/
theorem deeper [JsonFloats] {B : List Char → Prop} {d e : Nat} (he : d ≤ e) {cs : List Char}
    {j : Json} (h : JsonVal B d cs j) : JsonVal B e cs j := by
  cases h with
  | null => exact .null
  | true => exact .true
  | false => exact .false
  | num hn => exact .num hn
  | str hs => exact .str hs
  | arr0 hw =>
    obtain ⟨e, rfl⟩ := Nat.exists_eq_succ_of_ne_zero (n := e) (by omega)
    exact .arr0 hw
  | arr hl =>
    obtain ⟨e, rfl⟩ := Nat.exists_eq_succ_of_ne_zero (n := e) (by omega)
    exact .arr (deeper_vals (by omega) hl)
  | obj0 hw =>
    obtain ⟨e, rfl⟩ := Nat.exists_eq_succ_of_ne_zero (n := e) (by omega)
    exact .obj0 hw
  | obj hm ho =>
    obtain ⟨e, rfl⟩ := Nat.exists_eq_succ_of_ne_zero (n := e) (by omega)
    exact .obj (deeper_members (by omega) hm) ho
termination_by 2 * cs.length
decreasing_by all_goals (subst_vars; simp only [List.length_append, List.length_cons, List.length_nil]; omega)
/-- The same for the elements of an array. -/
theorem deeper_vals [JsonFloats] {B : List Char → Prop} {d e : Nat} (he : d ≤ e) {cs : List Char}
    {l : List Json} (h : JsonVals B d cs l) : JsonVals B e cs l := by
  cases h with
  | one hw hv hw' => exact .one hw (deeper he hv) hw'
  | more hw hv hw' hl => exact .more hw (deeper he hv) hw' (deeper_vals he hl)
termination_by 2 * cs.length + 1
decreasing_by all_goals (subst_vars; simp only [List.length_append, List.length_cons]; omega)
/-- The same for the members of an object. -/
theorem deeper_members [JsonFloats] {B : List Char → Prop} {d e : Nat} (he : d ≤ e)
    {cs : List Char} {l : List (String × Json)} (h : JsonMembers B d cs l) :
    JsonMembers B e cs l := by
  cases h with
  | one hw hk hw1 hw2 hv hw' => exact .one hw hk hw1 hw2 (deeper he hv) hw'
  | more hw hk hw1 hw2 hv hw' hl => exact .more hw hk hw1 hw2 (deeper he hv) hw' (deeper_members he hl)
termination_by 2 * cs.length + 1
decreasing_by all_goals (subst_vars; simp only [List.length_append, List.length_cons]; omega)
end

theorem nestingMap_le {m : JMap} {d : Nat} : nestingMap m ≤ d ↔ ∀ x ∈ m, nesting x.2 ≤ d := by
  induction m with
  | nil => simp [nestingMap]
  | cons kv m ih =>
    obtain ⟨k, v⟩ := kv
    simp only [nestingMap, Nat.max_le, ih, List.mem_cons, forall_eq_or_imp]

theorem lastMember_mem {k : String} {v : Json} : ∀ {ms : List (String × Json)},
    lastMember k ms = some v → (k, v) ∈ ms
  | [], h => by cases h
  | (k', v') :: ms, h => by
      simp only [lastMember] at h
      split at h
      · rename_i w hw
        cases h
        exact List.mem_cons_of_mem _ (lastMember_mem hw)
      · split at h
        · rename_i hk
          cases h
          rw [hk]
          exact List.mem_cons_self
        · cases h

mutual
/-- The bound of the grammar is a bound on the nesting of the document. -/
theorem nesting_le [JsonFloats] {B : List Char → Prop} {d : Nat} {cs : List Char} {j : Json}
    (h : JsonVal B d cs j) : nesting j ≤ d := by
  cases h with
  | null => simp [nesting]
  | true => simp [nesting]
  | false => simp [nesting]
  | num hn => simp [nesting]
  | str hs => simp [nesting]
  | arr0 hw => simp [nesting, nestingList]
  | arr hl =>
    have := nesting_le_vals hl
    simp only [nesting]
    omega
  | obj0 hw => simp [nesting, nestingMap]
  | obj hm ho =>
    have := nesting_le_members hm
    simp only [nesting, Nat.add_le_add_iff_right]
    refine nestingMap_le.2 fun x hx => ?_
    have hget := JMap.get?_eq_some_of_nodup (JMap.Sorted.nodup ho.1) (k := x.1) (v := x.2) hx
    rw [ho.2 x.1] at hget
    exact nestingMap_le.1 this _ (lastMember_mem hget)
termination_by 2 * cs.length
decreasing_by all_goals (subst_vars; simp only [List.length_append, List.length_cons, List.length_nil]; omega)
/-- The same for the elements of an array. -/
theorem nesting_le_vals [JsonFloats] {B : List Char → Prop} {d : Nat} {cs : List Char}
    {l : List Json} (h : JsonVals B d cs l) : nestingList l ≤ d := by
  cases h with
  | one hw hv hw' =>
    have := nesting_le hv
    simp only [nestingList]
    omega
  | more hw hv hw' hl =>
    have h1 := nesting_le hv
    have h2 := nesting_le_vals hl
    simp only [nestingList]
    omega
termination_by 2 * cs.length + 1
decreasing_by all_goals (subst_vars; simp only [List.length_append, List.length_cons]; omega)
/-- The same for the members of an object. -/
theorem nesting_le_members [JsonFloats] {B : List Char → Prop} {d : Nat}
    {cs : List Char} {l : List (String × Json)} (h : JsonMembers B d cs l) : nestingMap l ≤ d := by
  cases h with
  | one hw hk hw1 hw2 hv hw' =>
    have := nesting_le hv
    simp only [nestingMap]
    omega
  | more hw hk hw1 hw2 hv hw' hl =>
    have h1 := nesting_le hv
    have h2 := nesting_le_members hl
    simp only [nestingMap]
    omega
termination_by 2 * cs.length + 1
decreasing_by all_goals (subst_vars; simp only [List.length_append, List.length_cons]; omega)
end

theorem plain_commented [JsonFloats] {d : Nat} {text : List Char} {j : Json}
    (h : JsonText d text j) : CommentedJson d text j := by
  obtain ⟨w, cs, w', h1, h2, h3, rfl⟩ := h
  exact ⟨w, cs, w', spaces_blank h1, JsonVal.weaken (fun _ => spaces_blank) h2,
    .inl (spaces_blank h3), rfl⟩

end Avdl.Lemmas
