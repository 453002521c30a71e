import Verif.Lemmas.TokenShapes
import Verif.Lemmas.LayoutText
import Verif.Lemmas.ParserComplete
import Verif.Spec.SourceLiterals
/-! # Literals in parse trees come from the lexer -/

namespace Avdl
open Spec Spec.Lexing Spec.Grammar

/-! ## Tokens -/

/-- A literal token has the shape of a literal. -/
def TokShape (t : PTok) : Prop :=
  (t.kind = .int → IsIntegerToken t.text) ∧ (t.kind = .string → IsStringToken t.text)

theorem rule_int {r : LexRule} (h : r ∈ lexRules) (hk : r.kind = .int) : r.rx = intRx := by
  unfold lexRules at h
  simp only [List.mem_append, List.mem_map] at h
  rcases h with ((h | ⟨w, hw, rfl⟩) | ⟨c, hc, rfl⟩) | h
  · simp only [spaceRules, List.mem_cons, List.not_mem_nil, or_false] at h
    rcases h with rfl | rfl | rfl | rfl | rfl | rfl <;> cases hk
  · cases hk
  · cases hk
  · simp only [List.mem_cons, List.not_mem_nil, or_false] at h
    rcases h with rfl | rfl | rfl | rfl <;> first | rfl | cases hk

theorem rule_string {r : LexRule} (h : r ∈ lexRules) (hk : r.kind = .string) :
    r.rx = stringRx := by
  unfold lexRules at h
  simp only [List.mem_append, List.mem_map] at h
  rcases h with ((h | ⟨w, hw, rfl⟩) | ⟨c, hc, rfl⟩) | h
  · simp only [spaceRules, List.mem_cons, List.not_mem_nil, or_false] at h
    rcases h with rfl | rfl | rfl | rfl | rfl | rfl <;> cases hk
  · cases hk
  · cases hk
  · simp only [List.mem_cons, List.not_mem_nil, or_false] at h
    rcases h with rfl | rfl | rfl | rfl <;> first | rfl | cases hk

/-- A piece that is a token was matched by a rule of its type. -/
theorem piece_rule {cs : List Char} {ps : List Piece} (h : Pieces cs ps) :
    ∀ p ∈ ps, ∀ k, p.kind = some k → ∃ r ∈ lexRules, r.kind = k ∧ RuleMatches r p.text := by
  induction h with
  | done => intro p hp; cases hp
  | @token k w rest ps ht _ ih =>
    intro p hp k' hk
    rcases List.mem_cons.mp hp with rfl | hp
    · cases hk
      obtain ⟨b, r, a, e, hk, hm, _⟩ := ht.2.2.1
      exact ⟨r, by rw [e]; simp, hk, hm⟩
    · exact ih p hp k' hk
  | unrecognised _ _ ih =>
    intro p hp k' hk
    rcases List.mem_cons.mp hp with rfl | hp
    · cases hk
    · exact ih p hp k' hk

theorem streamOf_mem {ps : List Piece} : ∀ {o : Nat} {t : LexToken}, t ∈ streamOf o ps →
    ∃ p ∈ ps, p.kind = some t.kind ∧ t.text = String.ofList p.text := by
  induction ps with
  | nil => intro o t h; cases h
  | cons p ps ih =>
    intro o t h
    simp only [streamOf] at h
    split at h
    · rename_i k hk
      split at h
      · obtain ⟨q, hq, h⟩ := ih h
        exact ⟨q, List.mem_cons_of_mem _ hq, h⟩
      · rcases List.mem_cons.mp h with rfl | h
        · exact ⟨p, List.mem_cons_self .., hk, rfl⟩
        · obtain ⟨q, hq, h⟩ := ih h
          exact ⟨q, List.mem_cons_of_mem _ hq, h⟩
    · obtain ⟨q, hq, h⟩ := ih h
      exact ⟨q, List.mem_cons_of_mem _ hq, h⟩

theorem parserTokens_mem {file : String} {l : List LexToken} : ∀ {i : Nat} {t : PTok},
    t ∈ parserTokens file i l → ∃ x ∈ l, x.kind = t.kind ∧ x.text = t.text := by
  induction l with
  | nil => intro i t h; cases h
  | cons a l ih =>
    intro i t h
    simp only [parserTokens] at h
    split at h
    · obtain ⟨x, hx, h⟩ := ih h
      exact ⟨x, List.mem_cons_of_mem _ hx, h⟩
    · rcases List.mem_cons.mp h with rfl | h
      · exact ⟨a, List.mem_cons_self .., rfl, rfl⟩
      · obtain ⟨x, hx, h⟩ := ih h
        exact ⟨x, List.mem_cons_of_mem _ hx, h⟩

theorem parserTokens_shape (file : String) (cs : List Char) :
    ∀ t ∈ parserTokens file 0 (streamOf 0 (lex cs)), TokShape t := by
  intro t ht
  obtain ⟨x, hx, hk, htx⟩ := parserTokens_mem ht
  obtain ⟨p, hp, hpk, hpt⟩ := streamOf_mem hx
  obtain ⟨r, hr, hrk, hm, _⟩ := piece_rule (lex_iff.mpr rfl) p hp x.kind hpk
  unfold TokShape
  rw [← htx, hpt]
  refine ⟨fun h => ?_, fun h => ?_⟩
  · rw [rule_int hr (by rw [hrk, hk, h])] at hm
    exact int_shape hm
  · rw [rule_string hr (by rw [hrk, hk, h])] at hm
    exact string_shape hm

/-! ## Trees -/

/-- The literals of what the rule derives come from its tokens. -/
def Good {α : Type} (R : Rel α) (f : α → List SourceLiteral) : Prop :=
  ∀ ts a, R ts a → (∀ t ∈ ts, TokShape t) → ∀ l ∈ f a, l.Lexed

theorem Good.many {α : Type} {R : Rel α} {f : α → List SourceLiteral} (h : Good R f) :
    Good (Many R) (fun as => as.flatMap f) := by
  intro ts as hm
  induction hm with
  | nil => intro _ l hl; cases hl
  | cons h1 _ ih =>
    intro ht l hl
    simp only [List.flatMap_cons] at hl
    rcases List.mem_append.mp hl with hl | hl
    · exact h _ _ h1 (fun t hm => ht t (List.mem_append_left _ hm)) l hl
    · exact ih (fun t hm => ht t (List.mem_append_right _ hm)) l hl

theorem Good.commas {α : Type} {R : Rel α} {f : α → List SourceLiteral} (h : Good R f) :
    Good (Commas R) (fun as => as.flatMap f) := by
  intro ts as hm
  induction hm with
  | one h1 =>
    intro ht l hl
    simp only [List.flatMap_cons, List.flatMap_nil, List.append_nil] at hl
    exact h _ _ h1 ht l hl
  | more h1 _ _ ih =>
    intro ht l hl
    simp only [List.flatMap_cons] at hl
    rcases List.mem_append.mp hl with hl | hl
    · exact h _ _ h1 (fun t hm => ht t (List.mem_append_left _ hm)) l hl
    · exact ih (fun t hm => ht t (List.mem_append_right _ (List.mem_cons_of_mem _ hm))) l hl

theorem Good.commasOpt {α : Type} {R : Rel α} {f : α → List SourceLiteral} (h : Good R f) :
    Good (CommasOpt R) (fun as => as.flatMap f) := by
  intro ts as hm
  cases hm with
  | none => intro _ l hl; cases hl
  | some hm => exact h.commas _ _ hm

theorem commas_lexed {ts : List PTok} {vs : List JVal} (h : Commas JsonValue ts vs)
    (hv : ∀ ts' v, ts'.length ≤ ts.length → JsonValue ts' v → (∀ t ∈ ts', TokShape t) →
      LexedJson v) (ht : ∀ t ∈ ts, TokShape t) : LexedList vs := by
  induction h with
  | one h1 => exact .cons (hv _ _ (Nat.le_refl _) h1 ht) .nil
  | more h1 _ _ ih =>
    simp only [List.length_append, List.length_cons] at hv
    refine .cons (hv _ _ (by omega) h1 fun t hm => ht t (List.mem_append_left _ hm)) ?_
    exact ih (fun ts' v hl => hv ts' v (by omega))
      fun t hm => ht t (List.mem_append_right _ (List.mem_cons_of_mem _ hm))

theorem pair_lexed {ts : List PTok} {p : String × JVal} (h : Pair JsonValue ts p)
    (hv : ∀ ts' v, ts'.length ≤ ts.length → JsonValue ts' v → (∀ t ∈ ts', TokShape t) →
      LexedJson v) (ht : ∀ t ∈ ts, TokShape t) : IsStringToken p.1 ∧ LexedJson p.2 := by
  cases h with
  | mk hk _ h1 =>
    simp only [List.length_cons] at hv
    exact ⟨(ht _ (List.mem_cons_self ..)).2 hk, hv _ _ (by omega) h1
      fun t hm => ht t (List.mem_cons_of_mem _ (List.mem_cons_of_mem _ hm))⟩

theorem commasPair_lexed {ts : List PTok} {ps : List (String × JVal)}
    (h : Commas (Pair JsonValue) ts ps)
    (hv : ∀ ts' v, ts'.length ≤ ts.length → JsonValue ts' v → (∀ t ∈ ts', TokShape t) →
      LexedJson v) (ht : ∀ t ∈ ts, TokShape t) : LexedMembers ps := by
  induction h with
  | one h1 =>
    obtain ⟨h2, h3⟩ := pair_lexed h1 hv ht
    exact .cons h2 h3 .nil
  | more h1 _ _ ih =>
    simp only [List.length_append, List.length_cons] at hv
    obtain ⟨h2, h3⟩ := pair_lexed h1 (fun ts' v hl => hv ts' v (by omega))
      fun t hm => ht t (List.mem_append_left _ hm)
    refine .cons h2 h3 ?_
    exact ih (fun ts' v hl => hv ts' v (by omega))
      fun t hm => ht t (List.mem_append_right _ (List.mem_cons_of_mem _ hm))

theorem json_lexed (n : Nat) : ∀ ts v, ts.length ≤ n → JsonValue ts v → (∀ t ∈ ts, TokShape t) →
    LexedJson v := by
  induction n with
  | zero =>
    intro ts v hl h
    exact absurd (List.length_eq_zero_iff.mp (by omega)) h.ne_nil
  | succ n ih =>
    intro ts v hl h ht
    cases h with
    | @object l ts r m _ hm _ =>
      simp only [List.length_append, List.length_cons, List.length_nil] at hl
      have ht' : ∀ t ∈ ts, TokShape t := fun t hm => ht t (by simp [hm])
      refine .obj ?_
      cases hm with
      | none => exact .nil
      | some hm => exact commasPair_lexed hm (fun ts' v h' => ih ts' v (by omega)) ht'
    | @array l ts r m _ hm _ =>
      simp only [List.length_append, List.length_cons, List.length_nil] at hl
      have ht' : ∀ t ∈ ts, TokShape t := fun t hm => ht t (by simp [hm])
      refine .arr ?_
      cases hm with
      | none => exact .nil
      | some hm => exact commas_lexed hm (fun ts' v h' => ih ts' v (by omega)) ht'
    | literal h =>
      cases h with
      | null => exact .null
      | true => exact .true
      | false => exact .false
      | string h => exact .str ((ht _ (List.mem_cons_self ..)).2 h)
      | int h => exact .int ((ht _ (List.mem_cons_self ..)).1 h)
      | float => exact .float

theorem property_good : Good Property (fun a => [.json a.value]) := by
  intro ts a h ht l hl
  cases h with
  | mk _ _ _ hv _ =>
    simp only [List.mem_singleton] at hl
    subst hl
    exact json_lexed _ _ _ (Nat.le_refl _) hv fun t hm => ht t (by simp [hm])

theorem annots_good : Good (Many Property) annotLits := by
  intro ts as h ht l hl
  refine property_good.many ts as h ht l ?_
  simpa [annotLits, List.mem_flatMap, eq_comm] using hl

theorem primitive_good : Good Primitive primLits := by
  intro ts p h ht l hl
  cases h with
  | simple _ hs => cases hs <;> cases hl
  | decimal _ _ hp _ =>
    simp only [primLits, List.mem_singleton] at hl
    subst hl
    exact (ht _ (by simp)).1 hp
  | decimalScale _ _ hp _ hs _ =>
    simp only [primLits, List.mem_cons, List.not_mem_nil, or_false] at hl
    rcases hl with rfl | rfl
    · exact (ht _ (by simp)).1 hp
    · exact (ht _ (by simp)).1 hs

mutual
theorem plain_good : ∀ {ts : List PTok} {p : PlainType}, Plain ts p → (∀ t ∈ ts, TokShape t) →
    ∀ l ∈ plainLits p, l.Lexed
  | _, _, .array _ _ h _, ht, l, hl =>
      full_good h (fun t hm => ht t (by simp [hm])) l (by simpa only [plainLits] using hl)
  | _, _, .map _ _ h _, ht, l, hl =>
      full_good h (fun t hm => ht t (by simp [hm])) l (by simpa only [plainLits] using hl)
  | _, _, .union _ _ h _, ht, l, hl =>
      fullList_good h (fun t hm => ht t (by simp [hm])) l (by simpa only [plainLits] using hl)
  | _, _, .primitive h _, ht, l, hl =>
      primitive_good _ _ h (fun t hm => ht t (List.mem_append_left _ hm)) l
        (by simpa only [plainLits] using hl)
  | _, _, .named _ _ _, _, _, hl => by simp [plainLits] at hl
theorem full_good : ∀ {ts : List PTok} {f : FullType}, Full ts f → (∀ t ∈ ts, TokShape t) →
    ∀ l ∈ typeLits f, l.Lexed
  | _, _, .mk h1 h2, ht, l, hl => by
      simp only [typeLits] at hl
      rcases List.mem_append.mp hl with hl | hl
      · exact annots_good _ _ h1 (fun t hm => ht t (List.mem_append_left _ hm)) l hl
      · exact plain_good h2 (fun t hm => ht t (List.mem_append_right _ hm)) l hl
theorem fullList_good : ∀ {ts : List PTok} {fs : List FullType}, FullList ts fs →
    (∀ t ∈ ts, TokShape t) → ∀ l ∈ typesLits fs, l.Lexed
  | _, _, .one h, ht, l, hl =>
      full_good h ht l (by simpa only [typesLits, List.append_nil] using hl)
  | _, _, .more h1 _ h2, ht, l, hl => by
      simp only [typesLits] at hl
      rcases List.mem_append.mp hl with hl | hl
      · exact full_good h1 (fun t hm => ht t (List.mem_append_left _ hm)) l hl
      · exact fullList_good h2 (fun t hm => ht t
          (List.mem_append_right _ (List.mem_cons_of_mem _ hm))) l hl
end

theorem variable_good : Good Variable varLits := by
  intro ts v h ht l hl
  cases h with
  | plain h1 _ =>
    simp only [varLits, Option.toList, List.map_nil, List.append_nil] at hl
    exact annots_good _ _ h1 (fun t hm => ht t (List.mem_append_left _ hm)) l hl
  | default h1 _ _ h2 =>
    simp only [varLits, Option.toList, List.map_cons, List.map_nil] at hl
    rcases List.mem_append.mp hl with hl | hl
    · exact annots_good _ _ h1 (fun t hm => ht t (List.mem_append_left _ hm)) l hl
    · simp only [List.mem_singleton] at hl
      subst hl
      exact json_lexed _ _ _ (Nat.le_refl _) h2 fun t hm => ht t (by simp [hm])

theorem field_good : Good FieldDeclaration fieldLits := by
  intro ts d h ht l hl
  cases h with
  | mk h1 h2 _ =>
    simp only [fieldLits] at hl
    rcases List.mem_append.mp hl with hl | hl
    · exact full_good h1 (fun t hm => ht t (by simp [hm])) l hl
    · exact variable_good.commas _ _ h2 (fun t hm => ht t (by simp [hm])) l hl

theorem named_good : Good Named (fun d => namedLits d.1) := by
  intro ts d h ht l hl
  cases h with
  | fixed h1 _ _ _ h2 _ _ =>
    simp only [namedLits] at hl
    rcases List.mem_append.mp hl with hl | hl
    · exact annots_good _ _ h1 (fun t hm => ht t (by simp [hm])) l hl
    · simp only [List.mem_singleton] at hl
      subst hl
      exact (ht _ (by simp)).1 h2
  | enum h1 _ _ _ _ _ _ =>
    exact annots_good _ _ h1 (fun t hm => ht t (by simp [hm])) l hl
  | record h1 _ _ _ h2 _ | error h1 _ _ _ h2 _ =>
    simp only [namedLits] at hl
    rcases List.mem_append.mp hl with hl | hl
    · exact annots_good _ _ h1 (fun t hm => ht t (by simp [hm])) l hl
    · exact field_good.many _ _ h2 (fun t hm => ht t (by simp [hm])) l hl

theorem import_good : Good Import (fun i => [.location i.location]) := by
  intro ts i h ht l hl
  cases h with
  | schema _ _ h _ | protocol _ _ h _ | idl _ _ h _ =>
    simp only [List.mem_singleton] at hl
    subst hl
    exact (ht _ (by simp)).2 h

theorem parameter_good : Good Parameter paramLits := by
  intro ts p h ht l hl
  cases h with
  | mk h1 h2 =>
    simp only [paramLits] at hl
    rcases List.mem_append.mp hl with hl | hl
    · exact full_good h1 (fun t hm => ht t (by simp [hm])) l hl
    · exact variable_good _ _ h2 (fun t hm => ht t (by simp [hm])) l hl

theorem message_good : Good Spec.Grammar.Message messageLits := by
  intro ts m h ht l hl
  cases h with
  | mk h1 h2 _ _ h3 _ _ _ =>
    simp only [messageLits] at hl
    rcases List.mem_append.mp hl with hl | hl
    · rcases List.mem_append.mp hl with hl | hl
      · exact annots_good _ _ h1 (fun t hm => ht t (by simp [hm])) l hl
      · cases h2 with
        | void _ => cases hl
        | plain h2 _ => exact plain_good h2 (fun t hm => ht t (by simp [hm])) l hl
    · exact parameter_good.commasOpt _ _ h3 (fun t hm => ht t (by simp [hm])) l hl

theorem item_good : Good Item itemLits := by
  intro ts i h ht l hl
  cases h with
  | import_ h => exact import_good _ _ h ht l hl
  | named h => exact named_good _ _ h ht l hl
  | message h => exact message_good _ _ h ht l hl

theorem schemaItem_good : Good SchemaItem fileItemLits := by
  intro ts i h ht l hl
  cases h with
  | import_ h => exact import_good _ _ h ht l hl
  | named h => exact named_good _ _ h ht l hl

theorem file_good : Good File fileLits := by
  intro ts f h ht l hl
  cases h with
  | protocol h1 _ _ _ h2 _ =>
    simp only [fileLits] at hl
    rcases List.mem_append.mp hl with hl | hl
    · exact annots_good _ _ h1 (fun t hm => ht t (by simp [hm])) l hl
    · exact item_good.many _ _ h2 (fun t hm => ht t (by simp [hm])) l hl
  | schema _ h1 h2 =>
    simp only [fileLits] at hl
    rcases List.mem_append.mp hl with hl | hl
    · cases h1 with
      | none => cases hl
      | some _ h1 _ => exact full_good h1 (fun t hm => ht t (by simp [hm])) l hl
    · exact schemaItem_good.many _ _ h2 (fun t hm => ht t (by simp [hm])) l hl

end Avdl
