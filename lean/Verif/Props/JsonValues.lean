import Verif.Spec.JsonValue
import Verif.Lemmas.SourceLiterals
import Verif.Lemmas.LiteralsRead
import Verif.Props.Grammar
import Verif.Lemmas.Json
import Verif.Props.Literals
import Verif.Props.ReaderTypes
/-!
# C41: JSON values in source files
-/

namespace Avdl.Props
open Spec

section
variable [FloatTables]

omit [FloatTables] in
theorem string_read {raw : String} (h : IsStringToken raw) :
    StringMeans raw (getStringFromLiteral raw) := by
  obtain ⟨e, he, hb⟩ := h
  have hraw : raw = quoted e := by
    apply String.toList_inj.mp; rw [he, quoted, String.toList_ofList]
  obtain ⟨s, hs, -, hg⟩ := C19_token_decodes hb
  refine ⟨e, he, ?_⟩
  rw [hraw, hg, String.toList_ofList]
  exact hs

omit [FloatTables] in
theorem string_means {raw s : String} (h : StringMeans raw s) : getStringFromLiteral raw = s := by
  obtain ⟨e, he, hd⟩ := h
  have hraw : raw = quoted e := by
    apply String.toList_inj.mp; rw [he, quoted, String.toList_ofList]
  rw [hraw, C19_decode hd]
  simp

omit [FloatTables] in
theorem integer_read {text : String} {n : Notation} {negative long : Bool} {mag : Nat} {i : Int}
    (h : IntegerToken text n negative long mag) (hi : parseIntegerLiteral text = some i) :
    FitsI64 (denoted negative mag) ∧ i = denoted negative mag := by
  obtain ⟨h1, h2⟩ := C18_integer_literal_partial h
  by_cases hf : FitsI64 (denoted negative mag)
  · refine ⟨hf, ?_⟩
    by_cases hm : denoted negative mag ≠ -(2 ^ 63) ∨ n = .decimal
    · rw [h1 hf hm] at hi; exact (Option.some.inj hi).symm
    · exfalso
      simp only [ne_eq, not_or, Decidable.not_not] at hm
      cases negative with
      | false => simp only [denoted, Bool.false_eq_true, if_false] at hm; omega
      | true =>
        have : mag = 2 ^ 63 := by simp only [denoted, if_true] at hm; omega
        subst this
        rw [(C18_min_value_rejected h hm.2).2] at hi
        cases hi
  · rw [h2 hf] at hi; cases hi

omit [FloatTables] in
theorem objectOf_insert {ms : List (String × Json)} {acc o : JMap} (h : JMap.Sorted acc)
    (ho : o = ms.foldl (fun m kv => JMap.insert kv.1 kv.2 m) acc) :
    JMap.Sorted o ∧ ∀ k, o.get? k = (lastMember k ms).or (acc.get? k) := by
  induction ms generalizing acc with
  | nil => subst ho; exact ⟨h, fun k => by simp [lastMember]⟩
  | cons kv ms ih =>
    obtain ⟨h1, h2⟩ := ih (h.insert kv.1 kv.2) ho
    refine ⟨h1, fun k => ?_⟩
    rw [h2 k, JMap.get?_insert]
    simp only [lastMember]
    cases lastMember k ms with
    | some w => rfl
    | none =>
      simp only [Option.none_or]
      by_cases hk : k = kv.1
      · subst hk; simp
      · rw [if_neg hk, if_neg (fun e => hk e.symm)]; rfl

theorem walkJsonPairs_fold {ps : List (String × JVal)} : ∀ {acc o : JMap},
    walkJsonPairs acc ps = .ok o ↔ ∃ js, walkJsonList (ps.map Prod.snd) = .ok js ∧
      o = ((ps.map fun p => getStringFromLiteral p.1).zip js).foldl
        (fun m kv => JMap.insert kv.1 kv.2 m) acc := by
  induction ps with
  | nil =>
    intro acc o
    simp only [walkJsonPairs, List.map_nil, walkJsonList, List.zip_nil_left, List.foldl_nil]
    constructor
    · intro h; injection h with h; exact ⟨[], rfl, h.symm⟩
    · rintro ⟨js, _, h⟩; rw [h]
  | cons p ps ih =>
    intro acc o
    obtain ⟨k, v⟩ := p
    simp only [walkJsonPairs, List.map_cons, walkJsonList]
    cases hv : walkJson v with
    | error e => simp
    | ok j =>
      simp only
      rw [ih]
      constructor
      · rintro ⟨js, h1, h2⟩
        exact ⟨j :: js, by rw [h1], h2⟩
      · rintro ⟨js, h1, h2⟩
        cases hl : walkJsonList (ps.map Prod.snd) with
        | error e => rw [hl] at h1; cases h1
        | ok js' =>
          rw [hl] at h1
          injection h1 with h1; subst h1
          exact ⟨js', rfl, h2⟩

mutual
/-- **C41, JSON values.** What is read is what the value denotes. -/
theorem C41_json_read : ∀ {v : JVal} {j : Json}, LexedJson v → walkJson v = .ok j → JsonMeans v j
  | .null, _, _, h => by simp only [walkJson] at h; injection h with h; subst h; exact .null
  | .true, _, _, h => by simp only [walkJson] at h; injection h with h; subst h; exact .true
  | .false, _, _, h => by simp only [walkJson] at h; injection h with h; subst h; exact .false
  | .str raw, _, hl, h => by
      simp only [walkJson] at h; injection h with h; subst h
      cases hl with | str hs => exact .str (string_read hs)
  | .int text _, _, hl, h => by
      cases hl with
      | int ht =>
        obtain ⟨n, negative, long, mag, ht⟩ := ht
        simp only [walkJson] at h
        split at h
        · rename_i i hi
          injection h with h; subst h
          obtain ⟨hf, he⟩ := integer_read ht hi
          rw [he]; exact .int ht hf
        · cases h
  | .float text _, _, _, h => by
      simp only [walkJson] at h
      split at h
      · rename_i j hj; injection h with h; subst h; exact .float hj
      · cases h
  | .arr vs, _, hl, h => by
      cases hl with
      | arr hl =>
        simp only [walkJson] at h
        split at h
        · rename_i js hj; injection h with h; subst h; exact .arr (jsonList_read hl hj)
        · cases h
  | .obj ps, _, hl, h => by
      cases hl with
      | obj hl =>
        simp only [walkJson] at h
        split at h
        · rename_i o ho
          injection h with h; subst h
          obtain ⟨js, h1, h2⟩ := walkJsonPairs_fold.mp ho
          obtain ⟨h3, h4⟩ := objectOf_insert JMap.sorted_nil h2
          refine .obj (jsonMembers_read hl h1) ⟨h3, fun k => ?_⟩
          rw [h4 k]; simp [JMap.get?]
        · cases h
/-- The same for lists. -/
theorem jsonList_read : ∀ {vs : List JVal} {js : List Json}, LexedList vs →
    walkJsonList vs = .ok js → ListMeans vs js
  | [], _, _, h => by simp only [walkJsonList] at h; injection h with h; subst h; exact .nil
  | v :: vs, _, hl, h => by
      cases hl with
      | cons h1 h2 =>
        simp only [walkJsonList] at h
        split at h
        · cases h
        · rename_i j hj
          split at h
          · cases h
          · rename_i js hjs
            injection h with h; subst h
            exact .cons (C41_json_read h1 hj) (jsonList_read h2 hjs)
/-- The same for members. -/
theorem jsonMembers_read : ∀ {ps : List (String × JVal)} {js : List Json}, LexedMembers ps →
    walkJsonList (ps.map Prod.snd) = .ok js →
    MembersMean ps ((ps.map fun p => getStringFromLiteral p.1).zip js)
  | [], _, _, _ => .nil
  | (raw, v) :: ps, _, hl, h => by
      cases hl with
      | cons hs h1 h2 =>
        simp only [List.map_cons, walkJsonList] at h
        split at h
        · cases h
        · rename_i j hj
          split at h
          · cases h
          · rename_i js hjs
            injection h with h; subst h
            exact .cons (string_read hs) (C41_json_read h1 hj) (jsonMembers_read h2 hjs)
end

mutual
/-- **C41, JSON values (partial).** A value that denotes something is read as that; excluded is
`-2^63` in hexadecimal or octal, which is rejected (`C18_min_value_rejected`). -/
theorem C41_json_accepted_partial : ∀ {v : JVal} {j : Json}, JsonMeans v j → NoMinHex v →
    walkJson v = .ok j
  | .null, _, h, _ => by cases h; rfl
  | .true, _, h, _ => by cases h; rfl
  | .false, _, h, _ => by cases h; rfl
  | .str raw, _, h, _ => by cases h with | str hs => simp only [walkJson]; rw [string_means hs]
  | .int text _, _, h, hm => by
      cases h with
      | @int _ _ n negative long mag ht hf =>
        cases hm with
        | int hm =>
          have := (C18_integer_literal_partial ht).1 hf (by
            by_cases hn : n = .decimal
            · exact Or.inr hn
            · left
              intro he
              cases negative with
              | false => simp only [denoted, Bool.false_eq_true, if_false] at he; omega
              | true =>
                have : mag = 2 ^ 63 := by simp only [denoted, if_true] at he; omega
                subst this
                exact hm ⟨n, long, hn, ht⟩)
          simp only [walkJson]; rw [this]
  | .float text _, _, h, _ => by cases h with | float h => simp only [walkJson]; rw [h]
  | .arr vs, _, h, hm => by
      cases h with
      | arr h =>
        cases hm with
        | arr hm => simp only [walkJson]; rw [jsonList_accepted h hm]
  | .obj ps, _, h, hm => by
      cases h with
      | @obj _ ms o h ho =>
        cases hm with
        | obj hm =>
          have : walkJsonPairs [] ps = .ok o := by
            obtain ⟨js, h1, h2⟩ := jsonMembers_accepted h hm
            refine walkJsonPairs_fold.mpr ⟨js, h1, ?_⟩
            rw [← h2]
            obtain ⟨h3, h4⟩ := objectOf_insert (ms := ms) JMap.sorted_nil rfl
            refine JMap.Sorted.ext ho.1 h3 fun k => ?_
            rw [ho.2 k, h4 k]; simp [JMap.get?]
          simp only [walkJson]; rw [this]
/-- The same for lists. -/
theorem jsonList_accepted : ∀ {vs : List JVal} {js : List Json}, ListMeans vs js →
    (∀ v ∈ vs, NoMinHex v) → walkJsonList vs = .ok js
  | [], _, h, _ => by cases h; rfl
  | v :: vs, _, h, hm => by
      cases h with
      | cons h1 h2 =>
        simp only [walkJsonList]
        rw [C41_json_accepted_partial h1 (hm v (List.mem_cons_self ..)),
          jsonList_accepted h2 fun w hw => hm w (List.mem_cons_of_mem _ hw)]
/-- The same for members. -/
theorem jsonMembers_accepted : ∀ {ps : List (String × JVal)} {ms : List (String × Json)},
    MembersMean ps ms → (∀ p ∈ ps, NoMinHex p.2) → ∃ js,
      walkJsonList (ps.map Prod.snd) = .ok js ∧
      ms = (ps.map fun p => getStringFromLiteral p.1).zip js
  | [], _, h, _ => by cases h; exact ⟨[], rfl, rfl⟩
  | (raw, v) :: ps, _, h, hm => by
      cases h with
      | @cons _ k _ j _ _ hs h1 h2 =>
        obtain ⟨js, h3, h4⟩ := jsonMembers_accepted h2 fun p hp => hm p (List.mem_cons_of_mem _ hp)
        refine ⟨j :: js, ?_, ?_⟩
        · simp only [List.map_cons, walkJsonList]
          rw [C41_json_accepted_partial h1 (hm (raw, v) (List.mem_cons_self ..)), h3]
        · simp only [List.map_cons, List.zip_cons_cons]
          rw [string_means hs, h4]
end

/-- **C41, JSON values.** A value denotes at most one thing. -/
theorem C41_json_determined {v : JVal} {j j' : Json} (h : JsonMeans v j) (h' : JsonMeans v j')
    (hm : NoMinHex v) : j = j' := by
  have h1 := C41_json_accepted_partial h hm
  rw [C41_json_accepted_partial h' hm] at h1
  exact (Except.ok.inj h1).symm

end

section
variable [CharTables] [FloatTables] [CaseTables]

omit [CharTables] [FloatTables] [CaseTables] in
/-- The literals of a text that is parsed are tokens: the conditions of the theorems about
literals (C18, C19, C41) hold for every text. -/
theorem C41_literals_are_tokens {file text : String} {src : Source}
    (h : parseSource file text = some src) : ∀ l ∈ fileLits src.ast, l.Lexed :=
  file_good _ _ (accepted_has_reading h) (parserTokens_shape file _)

/-- **C41, literals.** In a text that is accepted every literal denotes a value: no integer is out
of range, no size negative. -/
theorem C41_literals_denote {file text : String} {src : Source} {r : ReadResult}
    (h : parseSource file text = some src) (hr : readFile src.tokens src.ast = .ok r) :
    ∀ l ∈ fileLits src.ast, l.Denotes := by
  intro l hl
  have h1 := C41_literals_are_tokens h l hl
  have h2 := readFile_reads hr l hl
  cases l with
  | json v =>
    obtain ⟨j, hj⟩ := h2
    exact ⟨j, C41_json_read h1 hj⟩
  | location raw => exact ⟨_, string_read h1⟩
  | size t =>
    obtain ⟨n, negative, long, mag, ht⟩ := h1
    obtain ⟨m, hm⟩ := h2
    cases long with
    | true => rw [C18_u32_suffix_rejected ht] at hm; cases hm
    | false =>
      rw [C18_u32_partial ht] at hm
      split at hm
      · rename_i hc
        obtain ⟨rfl, hlt⟩ := hc
        exact ⟨n, mag, ht, hlt⟩
      · cases hm

end

/-! ### Examples -/

attribute [local instance] asciiTables exFloats exCases

/-- `{"a": [0x10, -7L], "b\n": null, "a": "x"}`: the second `a` counts. -/
def exJson : JVal := .obj [("\"a\"", .arr [.int "0x10" none, .int "-7L" none]), ("\"b\\n\"", .null),
  ("\"a\"", .str "\"x\"")]

example : walkJson exJson = .ok (.obj [("a", .str "x"), ("b\n", .null)]) := by rfl

example : walkJson (.arr [.int "0x10" none, .int "-7L" none, .int "010" none]) =
    .ok (.arr [.num (.int 16), .num (.int (-7)), .num (.int 8)]) := by rfl

/-- `@p(0x1f) fixed F(4);` is accepted and has two literals. -/
def exLiteralText : String := "@p(0x1f) fixed F(4);"

example : (match parseSource "" exLiteralText with
    | none => 0
    | some src => (fileLits src.ast).length) = 2 := by decide +kernel

example : (match parseSource "" exLiteralText with
    | none => false
    | some src => match readFile src.tokens src.ast with
      | .ok _ => true
      | .error _ => false) = true := by decide +kernel

/-- An integer out of range is rejected. -/
example : (match parseSource "" "@p(9223372036854775808) fixed F(4);" with
    | none => false
    | some src => match readFile src.tokens src.ast with
      | .ok _ => true
      | .error _ => false) = false := by decide +kernel

end Avdl.Props
