import Verif.Spec.Grammar
/-!
# The parser accepts only what the grammar derives
-/

namespace Avdl
open Spec.Grammar

/-- What a parser returns is derived from the tokens it has used. -/
def PSound {α : Type} (p : P α) (R : Rel α) : Prop :=
  ∀ ts a rest, p ts = some (a, rest) → ∃ u, ts = u ++ rest ∧ R u a

theorem nextIs_iff {k : Kind} {ts : List PTok} :
    nextIs k ts = true ↔ ∃ t ts', ts = t :: ts' ∧ t.kind = k := by
  cases ts with
  | nil => simp [nextIs]
  | cons t ts => simp [nextIs]

theorem pTok_some {k : Kind} {ts rest : List PTok} {t : PTok} :
    pTok k ts = some (t, rest) ↔ ts = t :: rest ∧ t.kind = k := by
  cases ts with
  | nil => simp [pTok]
  | cons t' ts =>
    simp only [pTok]
    split
    · rename_i h
      constructor
      · intro e; cases e; exact ⟨rfl, h⟩
      · rintro ⟨e, _⟩; cases e; rfl
    · rename_i h
      constructor
      · intro e; cases e
      · rintro ⟨e, hk⟩; cases e; exact absurd hk h

theorem isIdent_iff {t : PTok} : t.kind.isIdent = true ↔ Ident t := by
  unfold Ident Kind.isIdent
  cases t.kind <;> simp

theorem pIdent_some {ts rest : List PTok} {t : PTok} :
    pIdent ts = some (t, rest) ↔ ts = t :: rest ∧ Ident t := by
  cases ts with
  | nil => simp [pIdent]
  | cons t' ts =>
    simp only [pIdent]
    split
    · rename_i h
      constructor
      · intro e; cases e; exact ⟨rfl, isIdent_iff.mp h⟩
      · rintro ⟨e, _⟩; cases e; rfl
    · rename_i h
      constructor
      · intro e; cases e
      · rintro ⟨e, hk⟩; cases e; exact absurd (isIdent_iff.mpr hk) h

/-- What lies between the tokens of a node with something behind it and that something. -/
theorem spanBetween_of {ts u rest : List PTok} (h : ts = u ++ rest) :
    spanBetween ts rest = nodeSpan u := by
  subst h
  simp [spanBetween]

theorem bind_some {α β : Type} {x : Option α} {f : α → Option β} {b : β} :
    (x >>= f) = some b ↔ ∃ a, x = some a ∧ f a = some b := by
  cases x <;> simp

theorem pCommas_sound {α : Type} {one : P α} {R : Rel α} {close : Kind} (h1 : PSound one R)
    (n : Nat) : ∀ ts as rest, pCommas one close n ts = some (as, rest) →
      ∃ u c, ts = u ++ c :: rest ∧ c.kind = close ∧ Commas R u as := by
  induction n with
  | zero => intro ts as rest h; cases h
  | succ n ih =>
    intro ts as rest h
    unfold pCommas at h
    replace h := bind_some.mp h; obtain ⟨⟨a, ts1⟩, e1, h⟩ := h
    obtain ⟨u, rfl, hu⟩ := h1 _ _ _ e1
    simp only at h
    split at h
    · rename_i hc
      obtain ⟨c, ts2, rfl, hk⟩ := nextIs_iff.mp hc
      replace h := bind_some.mp h; obtain ⟨⟨as', ts3⟩, e2, h⟩ := h
      cases h
      obtain ⟨u', c', e, hc', hcs⟩ := ih _ _ _ e2
      simp only [List.tail_cons] at e
      subst e
      exact ⟨u ++ c :: u', c', by simp, hc', .more hu hk hcs⟩
    · replace h := bind_some.mp h; obtain ⟨⟨c, ts2⟩, e2, h⟩ := h
      cases h
      obtain ⟨rfl, hk⟩ := pTok_some.mp e2
      exact ⟨u, c, rfl, hk, .one hu⟩

theorem pCommasOpt_sound {α : Type} {one : P α} {R : Rel α} {close : Kind} (h1 : PSound one R)
    {n : Nat} {ts rest : List PTok} {as : List α} (h : pCommasOpt one close n ts = some (as, rest)) :
    ∃ u c, ts = u ++ c :: rest ∧ c.kind = close ∧ CommasOpt R u as := by
  unfold pCommasOpt at h
  split at h
  · rename_i hc
    obtain ⟨c, ts2, rfl, hk⟩ := nextIs_iff.mp hc
    cases h
    exact ⟨[], c, rfl, hk, .none⟩
  · obtain ⟨u, c, e, hc, hcs⟩ := pCommas_sound h1 n _ _ _ h
    exact ⟨u, c, e, hc, .some hcs⟩

theorem pUntil_sound {α : Type} {one : P α} {R : Rel α} {close : Kind} (h1 : PSound one R)
    (n : Nat) : ∀ ts as rest, pUntil one close n ts = some (as, rest) →
      ∃ u c, ts = u ++ c :: rest ∧ c.kind = close ∧ Many R u as := by
  induction n with
  | zero => intro ts as rest h; cases h
  | succ n ih =>
    intro ts as rest h
    unfold pUntil at h
    split at h
    · rename_i hc
      obtain ⟨c, ts2, rfl, hk⟩ := nextIs_iff.mp hc
      cases h
      exact ⟨[], c, rfl, hk, .nil⟩
    · replace h := bind_some.mp h; obtain ⟨⟨a, ts1⟩, e1, h⟩ := h
      obtain ⟨u, rfl, hu⟩ := h1 _ _ _ e1
      replace h := bind_some.mp h; obtain ⟨⟨as', ts3⟩, e2, h⟩ := h
      cases h
      obtain ⟨u', c', e, hc', hcs⟩ := ih _ _ _ e2
      try simp only at e
      subst e
      exact ⟨u ++ u', c', by simp, hc', .cons hu hcs⟩

theorem pAll_sound {α : Type} {one : P α} {R : Rel α} (h1 : PSound one R)
    (n : Nat) : ∀ ts as, pAll one n ts = some as → Many R ts as := by
  induction n with
  | zero => intro ts as h; cases h
  | succ n ih =>
    intro ts as h
    cases ts with
    | nil => cases h; exact .nil
    | cons t ts =>
      unfold pAll at h
      replace h := bind_some.mp h; obtain ⟨⟨a, ts1⟩, e1, h⟩ := h
      obtain ⟨u, e, hu⟩ := h1 _ _ _ e1
      replace h := bind_some.mp h; obtain ⟨as', e2, h⟩ := h
      cases h
      rw [e]
      exact .cons hu (ih _ _ e2)

/-! ## JSON -/

theorem jsonLiteral_sound {t : PTok} {v : JVal} (h : jsonLiteral t = some v) : Literal [t] v := by
  unfold jsonLiteral at h
  split at h
  · cases h; exact .null ‹_›
  split at h
  · cases h; exact .true ‹_›
  split at h
  · cases h; exact .false ‹_›
  split at h
  · cases h; exact .string ‹_›
  split at h
  · cases h; exact .int ‹_›
  split at h
  · cases h; exact .float ‹_›
  · cases h

theorem pPair_sound {p : P JVal} {R : Rel JVal} (h1 : PSound p R) : PSound (pPair p) (Pair R) := by
  intro ts a rest h
  unfold pPair at h
  replace h := bind_some.mp h; obtain ⟨⟨k, ts1⟩, e1, h⟩ := h
  obtain ⟨rfl, hk⟩ := pTok_some.mp e1
  replace h := bind_some.mp h; obtain ⟨⟨c, ts2⟩, e2, h⟩ := h
  obtain ⟨rfl, hc⟩ := pTok_some.mp e2
  replace h := bind_some.mp h; obtain ⟨⟨v, ts3⟩, e3, h⟩ := h
  obtain ⟨u, rfl, hu⟩ := h1 _ _ _ e3
  cases h
  exact ⟨k :: c :: u, rfl, .mk hk hc hu⟩

theorem pJson_sound (n : Nat) : PSound (pJson n) JsonValue := by
  induction n with
  | zero => intro ts a rest h; cases h
  | succ n ih =>
    intro ts a rest h
    cases ts with
    | nil => cases h
    | cons t ts =>
      unfold pJson at h
      split at h
      · replace h := Option.map_eq_some_iff.mp h; obtain ⟨⟨m, r⟩, e, h⟩ := h
        cases h
        obtain ⟨u, c, rfl, hc, hm⟩ := pCommasOpt_sound (pPair_sound ih) e
        exact ⟨t :: u ++ [c], by simp, .object ‹_› hm hc⟩
      split at h
      · replace h := Option.map_eq_some_iff.mp h; obtain ⟨⟨m, r⟩, e, h⟩ := h
        cases h
        obtain ⟨u, c, rfl, hc, hm⟩ := pCommasOpt_sound ih e
        exact ⟨t :: u ++ [c], by simp, .array ‹_› hm hc⟩
      · replace h := Option.map_eq_some_iff.mp h; obtain ⟨v, e, h⟩ := h
        cases h
        exact ⟨[t], rfl, .literal (jsonLiteral_sound e)⟩

theorem pAnnot_sound (n : Nat) : PSound (pAnnot n) Property := by
  intro ts a rest h
  unfold pAnnot at h
  replace h := bind_some.mp h; obtain ⟨⟨k, ts1⟩, e1, h⟩ := h
  obtain ⟨rfl, hk⟩ := pTok_some.mp e1
  replace h := bind_some.mp h; obtain ⟨⟨c, ts2⟩, e2, h⟩ := h
  obtain ⟨rfl, hc⟩ := pIdent_some.mp e2
  replace h := bind_some.mp h; obtain ⟨⟨l, ts3⟩, e3, h⟩ := h
  obtain ⟨rfl, hl⟩ := pTok_some.mp e3
  replace h := bind_some.mp h; obtain ⟨⟨v, ts4⟩, e4, h⟩ := h
  obtain ⟨u, rfl, hu⟩ := pJson_sound n _ _ _ e4
  replace h := bind_some.mp h; obtain ⟨⟨r, ts5⟩, e5, h⟩ := h
  obtain ⟨rfl, hr⟩ := pTok_some.mp e5
  cases h
  refine ⟨k :: c :: l :: u ++ [r], by simp, ?_⟩
  rw [spanBetween_of (u := k :: c :: l :: u ++ [r]) (by simp)]
  exact .mk hk hc hl hu hr

theorem pAnnots_sound (n : Nat) : PSound (pAnnots n) (Many Property) := by
  induction n with
  | zero => intro ts a rest h; cases h
  | succ n ih =>
    intro ts a rest h
    unfold pAnnots at h
    split at h
    · replace h := bind_some.mp h; obtain ⟨⟨a, ts1⟩, e1, h⟩ := h
      obtain ⟨u, rfl, hu⟩ := pAnnot_sound n _ _ _ e1
      replace h := bind_some.mp h; obtain ⟨⟨as', ts3⟩, e2, h⟩ := h
      cases h
      obtain ⟨u', e, hcs⟩ := ih _ _ _ e2
      try simp only at e
      subst e
      exact ⟨u ++ u', by simp, .cons hu hcs⟩
    · cases h; exact ⟨[], rfl, .nil⟩

/-! ## Types -/

theorem ite_some {α : Type} {c : Prop} [Decidable c] {a b : α} {e : Option α}
    (h : (if c then some a else e) = some b) : (c ∧ a = b) ∨ e = some b := by
  split at h
  · injection h with h; exact .inl ⟨‹_›, h⟩
  · exact .inr h

theorem simplePrim_some {k : Kind} {p : PrimTok} :
    simplePrim k = some p ↔ ∃ w, k = .kw w ∧ SimpleType w p := by
  constructor
  · intro h
    unfold simplePrim at h
    iterate 13
      replace h := ite_some h
      rcases h with ⟨hk, h⟩ | h
      · subst h
        exact ⟨_, hk, by constructor⟩
    cases h
  · rintro ⟨w, rfl, h⟩
    cases h <;> rfl

theorem pOptional_sound (ts : List PTok) :
    ∃ q, ts = q ++ (pOptional ts).2 ∧ Question q (pOptional ts).1 := by
  unfold pOptional
  split
  · rename_i h
    obtain ⟨t, ts', rfl, hk⟩ := nextIs_iff.mp h
    exact ⟨[t], rfl, .yes hk⟩
  · exact ⟨[], rfl, .no⟩

theorem pDecimal_sound {ts rest : List PTok} {p : PrimTok} (h : pDecimal ts = some (p, rest)) :
    ∃ u, ts = u ++ rest ∧
      ∀ d l, Word "decimal" d → Sign '(' l → Primitive (d :: l :: u) p := by
  unfold pDecimal at h
  replace h := bind_some.mp h; obtain ⟨⟨k, ts1⟩, e1, h⟩ := h
  obtain ⟨rfl, hk⟩ := pTok_some.mp e1
  simp only at h
  split at h
  · rename_i hc
    obtain ⟨c, ts2, rfl, hcm⟩ := nextIs_iff.mp hc
    replace h := bind_some.mp h; obtain ⟨⟨s, ts3⟩, e3, h⟩ := h
    obtain ⟨e, hs⟩ := pTok_some.mp e3
    simp only [List.tail_cons] at e
    subst e
    replace h := bind_some.mp h; obtain ⟨⟨r, ts4⟩, e4, h⟩ := h
    obtain ⟨rfl, hr⟩ := pTok_some.mp e4
    cases h
    exact ⟨[k, c, s, r], rfl, fun d l hd hl => .decimalScale hd hl hk hcm hs hr⟩
  · replace h := bind_some.mp h; obtain ⟨⟨r, ts4⟩, e4, h⟩ := h
    obtain ⟨rfl, hr⟩ := pTok_some.mp e4
    cases h
    exact ⟨[k, r], rfl, fun d l hd hl => .decimal hd hl hk hr⟩

theorem fullList_of_commas {ts : List PTok} {fs : List FullType} (h : Commas Full ts fs) :
    FullList ts fs := by
  induction h with
  | one h => exact .one h
  | more h hc _ ih => exact .more h hc ih

theorem commas_of_fullList : {ts : List PTok} → {fs : List FullType} → FullList ts fs →
    Commas Full ts fs
  | _, _, .one h => .one h
  | _, _, .more h hc h' => .more h hc (commas_of_fullList h')

theorem pType_sound (n : Nat) : PSound (pFull n) Full ∧ PSound (pPlain n) Plain := by
  induction n with
  | zero =>
    constructor <;> (intro ts a rest h; simp [pFull, pPlain] at h)
  | succ n ih =>
    constructor
    · intro ts a rest h
      unfold pFull at h
      replace h := bind_some.mp h; obtain ⟨⟨as, ts1⟩, e1, h⟩ := h
      obtain ⟨u, rfl, hu⟩ := pAnnots_sound n _ _ _ e1
      replace h := bind_some.mp h; obtain ⟨⟨t, ts2⟩, e2, h⟩ := h
      obtain ⟨u', e, hu'⟩ := ih.2 _ _ _ e2
      try simp only at e
      subst e
      cases h
      refine ⟨u ++ u', by simp, ?_⟩
      rw [spanBetween_of (u := u ++ u') (by simp)]
      exact .mk hu hu'
    · intro ts a rest h
      cases ts with
      | nil => simp [pPlain] at h
      | cons t ts =>
        unfold pPlain at h
        split at h
        · rename_i hc
          obtain ⟨l, ts1, rfl, hl⟩ := nextIs_iff.mp hc.2
          replace h := bind_some.mp h; obtain ⟨⟨f, ts2⟩, e2, h⟩ := h
          obtain ⟨u, e, hu⟩ := ih.1 _ _ _ e2
          simp only [List.tail_cons] at e
          subst e
          replace h := bind_some.mp h; obtain ⟨⟨r, ts3⟩, e3, h⟩ := h
          obtain ⟨rfl, hr⟩ := pTok_some.mp e3
          cases h
          exact ⟨t :: l :: u ++ [r], by simp, .array hc.1 hl hu hr⟩
        split at h
        · rename_i hc
          obtain ⟨l, ts1, rfl, hl⟩ := nextIs_iff.mp hc.2
          replace h := bind_some.mp h; obtain ⟨⟨f, ts2⟩, e2, h⟩ := h
          obtain ⟨u, e, hu⟩ := ih.1 _ _ _ e2
          simp only [List.tail_cons] at e
          subst e
          replace h := bind_some.mp h; obtain ⟨⟨r, ts3⟩, e3, h⟩ := h
          obtain ⟨rfl, hr⟩ := pTok_some.mp e3
          cases h
          exact ⟨t :: l :: u ++ [r], by simp, .map hc.1 hl hu hr⟩
        split at h
        · rename_i hc
          obtain ⟨l, ts1, rfl, hl⟩ := nextIs_iff.mp hc.2
          replace h := Option.map_eq_some_iff.mp h; obtain ⟨⟨fs, ts2⟩, e2, h⟩ := h
          obtain ⟨u, r, e, hr, hu⟩ := pCommas_sound ih.1 n _ _ _ e2
          simp only [List.tail_cons] at e
          subst e
          cases h
          exact ⟨t :: l :: u ++ [r], by simp, .union hc.1 hl (fullList_of_commas hu) hr⟩
        split at h
        · rename_i hc
          obtain ⟨l, ts1, rfl, hl⟩ := nextIs_iff.mp hc.2
          replace h := bind_some.mp h; obtain ⟨⟨p, ts2⟩, e2, h⟩ := h
          obtain ⟨u, e, hu⟩ := pDecimal_sound e2
          simp only [List.tail_cons] at e
          subst e
          obtain ⟨q, e, hq⟩ := pOptional_sound ts2
          cases h
          have e' : t :: l :: (u ++ ts2) = ((t :: l :: u) ++ q) ++ (pOptional ts2).2 := by
            simp only [List.cons_append, List.append_assoc]
            rw [← e]
          refine ⟨(t :: l :: u) ++ q, e', ?_⟩
          rw [spanBetween_of e']
          exact .primitive (hu t l hc.1 hl) hq
        · obtain ⟨q, e, hq⟩ := pOptional_sound ts
          split at h
          · rename_i p hp
            obtain ⟨w, hw, hs⟩ := simplePrim_some.mp hp
            cases h
            have e' : t :: ts = ([t] ++ q) ++ (pOptional ts).2 := by
              simp only [List.cons_append, List.nil_append]
              rw [← e]
            refine ⟨[t] ++ q, e', ?_⟩
            rw [spanBetween_of e']
            exact .primitive (.simple hw hs) hq
          · rename_i hp
            split at h
            · rename_i hi
              cases h
              refine ⟨t :: q, ?_, .named (isIdent_iff.mp hi) ?_ hq⟩
              · simp only [List.cons_append]; rw [← e]
              · intro w p hw hs
                rw [simplePrim_some.mpr ⟨w, hw, hs⟩] at hp
                cases hp
            · cases h

/-! ## Declarations -/

theorem firstIndex_append {u rest : List PTok} (h : u ≠ []) :
    firstIndex (u ++ rest) = firstIndex u := by
  cases u with
  | nil => exact absurd rfl h
  | cons => rfl

theorem firstSpan_append {u rest : List PTok} (h : u ≠ []) :
    firstSpan (u ++ rest) = firstSpan u := by
  cases u with
  | nil => exact absurd rfl h
  | cons => rfl

theorem firstIndex_mid (u : List PTok) (t : PTok) (rest : List PTok) :
    firstIndex (u ++ t :: rest) = firstIndex (u ++ [t]) := by
  cases u <;> rfl

theorem firstSpan_mid (u : List PTok) (t : PTok) (rest : List PTok) :
    firstSpan (u ++ t :: rest) = firstSpan (u ++ [t]) := by
  cases u <;> rfl

theorem Spec.Grammar.JsonValue.ne_nil {ts : List PTok} {v : JVal} (h : JsonValue ts v) : ts ≠ [] := by
  cases h with
  | object => simp
  | array => simp
  | literal h => cases h <;> simp

theorem Spec.Grammar.Primitive.ne_nil {ts : List PTok} {v : PrimTok} (h : Primitive ts v) : ts ≠ [] := by
  cases h <;> simp

theorem Spec.Grammar.Plain.ne_nil {ts : List PTok} {v : PlainType} (h : Plain ts v) : ts ≠ [] := by
  cases h with
  | primitive h => simp [Primitive.ne_nil h]
  | _ => simp

theorem Spec.Grammar.Full.ne_nil {ts : List PTok} {v : FullType} (h : Full ts v) : ts ≠ [] := by
  cases h with
  | mk _ h => simp [Plain.ne_nil h]

theorem pVar_sound (n : Nat) : PSound (pVar n) Variable := by
  intro ts a rest h
  unfold pVar at h
  replace h := bind_some.mp h; obtain ⟨⟨as, ts1⟩, e1, h⟩ := h
  obtain ⟨u, rfl, hu⟩ := pAnnots_sound n _ _ _ e1
  replace h := bind_some.mp h; obtain ⟨⟨name, ts2⟩, e2, h⟩ := h
  obtain ⟨rfl, hi⟩ := pIdent_some.mp e2
  simp only at h
  rw [firstIndex_mid, firstSpan_mid] at h
  split at h
  · rename_i hc
    obtain ⟨eq, ts3, rfl, heq⟩ := nextIs_iff.mp hc
    replace h := bind_some.mp h; obtain ⟨⟨v, ts4⟩, e4, h⟩ := h
    obtain ⟨w, e, hw⟩ := pJson_sound n _ _ _ e4
    simp only [List.tail_cons] at e
    subst e
    cases h
    refine ⟨u ++ name :: eq :: w, by simp, ?_⟩
    simp only [List.tail_cons]
    rw [firstSpan_append hw.ne_nil, spanBetween_of rfl]
    exact .default hu hi heq hw
  · cases h
    exact ⟨u ++ [name], by simp, .plain hu hi⟩

theorem pField_sound (n : Nat) : PSound (pField n) FieldDeclaration := by
  intro ts a rest h
  unfold pField at h
  replace h := bind_some.mp h; obtain ⟨⟨f, ts1⟩, e1, h⟩ := h
  obtain ⟨u, rfl, hu⟩ := (pType_sound n).1 _ _ _ e1
  replace h := bind_some.mp h; obtain ⟨⟨vs, ts2⟩, e2, h⟩ := h
  obtain ⟨w, c, e, hc, hw⟩ := pCommas_sound (pVar_sound n) n _ _ _ e2
  try simp only at e
  subst e
  cases h
  rw [firstIndex_append hu.ne_nil]
  exact ⟨u ++ w ++ [c], by simp, .mk hu hw hc⟩

theorem pSymbol_sound (n : Nat) : PSound (pSymbol n) EnumSymbol := by
  intro ts a rest h
  unfold pSymbol at h
  replace h := bind_some.mp h; obtain ⟨⟨as, ts1⟩, e1, h⟩ := h
  obtain ⟨u, rfl, hu⟩ := pAnnots_sound n _ _ _ e1
  replace h := bind_some.mp h; obtain ⟨⟨name, ts2⟩, e2, h⟩ := h
  obtain ⟨rfl, hi⟩ := pIdent_some.mp e2
  cases h
  refine ⟨u ++ [name], by simp, ?_⟩
  rw [spanBetween_of (u := u ++ [name]) (by simp)]
  exact .mk hu hi

theorem pEnumDefault_sound : PSound pEnumDefault EnumDefault := by
  intro ts a rest h
  unfold pEnumDefault at h
  split at h
  · rename_i hc
    obtain ⟨eq, ts3, rfl, heq⟩ := nextIs_iff.mp hc
    replace h := bind_some.mp h; obtain ⟨⟨d, ts4⟩, e4, h⟩ := h
    obtain ⟨e, hd⟩ := pIdent_some.mp e4
    simp only [List.tail_cons] at e
    subst e
    replace h := bind_some.mp h; obtain ⟨⟨s, ts5⟩, e5, h⟩ := h
    obtain ⟨rfl, hs⟩ := pTok_some.mp e5
    cases h
    exact ⟨[eq, d, s], rfl, .some heq hd hs⟩
  · cases h; exact ⟨[], rfl, .none⟩

theorem pNamed_sound (n : Nat) : PSound (pNamed n) Named := by
  intro ts a rest h
  unfold pNamed at h
  replace h := bind_some.mp h; obtain ⟨⟨as, ts1⟩, e1, h⟩ := h
  obtain ⟨u, rfl, hu⟩ := pAnnots_sound n _ _ _ e1
  simp only at h
  cases ts1 with
  | nil => cases h
  | cons k ts1 =>
    simp only at h
    rw [firstIndex_mid, firstSpan_mid] at h
    replace h := bind_some.mp h; obtain ⟨⟨name, ts2⟩, e2, h⟩ := h
    obtain ⟨rfl, hi⟩ := pIdent_some.mp e2
    simp only at h
    split at h
    · rename_i hk
      replace h := bind_some.mp h; obtain ⟨⟨l, ts3⟩, e3, h⟩ := h
      obtain ⟨rfl, hl⟩ := pTok_some.mp e3
      replace h := bind_some.mp h; obtain ⟨⟨s, ts4⟩, e4, h⟩ := h
      obtain ⟨rfl, hs⟩ := pTok_some.mp e4
      replace h := bind_some.mp h; obtain ⟨⟨r, ts5⟩, e5, h⟩ := h
      obtain ⟨rfl, hr⟩ := pTok_some.mp e5
      replace h := bind_some.mp h; obtain ⟨⟨m, ts6⟩, e6, h⟩ := h
      obtain ⟨rfl, hm⟩ := pTok_some.mp e6
      cases h
      exact ⟨u ++ [k, name, l, s, r, m], by simp, .fixed hu hk hi hl hs hr hm⟩
    split at h
    · rename_i hk
      replace h := bind_some.mp h; obtain ⟨⟨l, ts3⟩, e3, h⟩ := h
      obtain ⟨rfl, hl⟩ := pTok_some.mp e3
      replace h := bind_some.mp h; obtain ⟨⟨syms, ts4⟩, e4, h⟩ := h
      obtain ⟨w, c, e, hc, hw⟩ := pCommasOpt_sound (pSymbol_sound n) e4
      try simp only at e
      subst e
      replace h := bind_some.mp h; obtain ⟨⟨d, ts5⟩, e5, h⟩ := h
      obtain ⟨x, e, hx⟩ := pEnumDefault_sound _ _ _ e5
      try simp only at e
      subst e
      cases h
      exact ⟨u ++ k :: name :: l :: w ++ c :: x, by simp, .enum hu hk hi hl hw hc hx⟩
    split at h
    · rename_i hk
      replace h := bind_some.mp h; obtain ⟨⟨l, ts3⟩, e3, h⟩ := h
      obtain ⟨rfl, hl⟩ := pTok_some.mp e3
      replace h := bind_some.mp h; obtain ⟨⟨fs, ts4⟩, e4, h⟩ := h
      obtain ⟨w, c, e, hc, hw⟩ := pUntil_sound (pField_sound n) n _ _ _ e4
      try simp only at e
      subst e
      cases h
      refine ⟨u ++ k :: name :: l :: w ++ [c], by simp, ?_⟩
      rcases hk with hk | hk
      · have : (k.kind == Kind.kw "error") = false := by rw [hk]; rfl
        rw [this]
        exact .record hu hk hi hl hw hc
      · have : (k.kind == Kind.kw "error") = true := by rw [hk]; rfl
        rw [this]
        exact .error hu hk hi hl hw hc
    · cases h

theorem pImport_sound : PSound pImport Import := by
  intro ts a rest h
  unfold pImport at h
  replace h := bind_some.mp h; obtain ⟨⟨i, ts1⟩, e1, h⟩ := h
  obtain ⟨rfl, hi⟩ := pTok_some.mp e1
  simp only at h
  cases ts1 with
  | nil => cases h
  | cons k ts1 =>
    simp only at h
    replace h := bind_some.mp h; obtain ⟨kind, e2, h⟩ := h
    replace h := bind_some.mp h; obtain ⟨⟨s, ts4⟩, e4, h⟩ := h
    obtain ⟨rfl, hs⟩ := pTok_some.mp e4
    replace h := bind_some.mp h; obtain ⟨⟨r, ts5⟩, e5, h⟩ := h
    obtain ⟨rfl, hr⟩ := pTok_some.mp e5
    cases h
    refine ⟨[i, k, s, r], rfl, ?_⟩
    unfold importKind at e2
    split at e2
    · cases e2; exact .idl hi ‹_› hs hr
    split at e2
    · cases e2; exact .protocol hi ‹_› hs hr
    split at e2
    · cases e2; exact .schema hi ‹_› hs hr
    · cases e2

theorem pParam_sound (n : Nat) : PSound (pParam n) Parameter := by
  intro ts a rest h
  unfold pParam at h
  replace h := bind_some.mp h; obtain ⟨⟨f, ts1⟩, e1, h⟩ := h
  obtain ⟨u, rfl, hu⟩ := (pType_sound n).1 _ _ _ e1
  replace h := bind_some.mp h; obtain ⟨⟨v, ts2⟩, e2, h⟩ := h
  obtain ⟨w, e, hw⟩ := pVar_sound n _ _ _ e2
  try simp only at e
  subst e
  cases h
  rw [firstIndex_append hu.ne_nil]
  refine ⟨u ++ w, by simp, ?_⟩
  rw [spanBetween_of (u := u ++ w) (by simp)]
  exact .mk hu hw

theorem pResult_sound (n : Nat) : PSound (pResult n) Result := by
  intro ts a rest h
  unfold pResult at h
  split at h
  · rename_i hc
    obtain ⟨t, ts', rfl, ht⟩ := nextIs_iff.mp hc.1
    cases h
    exact ⟨[t], rfl, .void ht⟩
  · rename_i hc
    replace h := Option.map_eq_some_iff.mp h; obtain ⟨⟨p, ts1⟩, e1, h⟩ := h
    cases h
    obtain ⟨u, rfl, hu⟩ := (pType_sound n).2 _ _ _ e1
    refine ⟨u, rfl, .plain hu ?_⟩
    rintro t rfl ht
    refine hc ⟨nextIs_iff.mpr ⟨t, _, rfl, ht⟩, ?_⟩
    intro hq
    obtain ⟨q, ts2, e, hqk⟩ := nextIs_iff.mp hq
    simp only [List.cons_append, List.nil_append, List.tail_cons] at e
    subst e
    -- the parser would have taken the question mark
    cases n with
    | zero => simp [pPlain] at e1
    | succ n =>
      have hk : t.kind = .kw "void" := ht
      have h1 : simplePrim t.kind = none := by rw [hk]; rfl
      have h2 : t.kind.isIdent = true := by rw [hk]; rfl
      simp only [List.cons_append, List.nil_append] at e1
      unfold pPlain at e1
      simp only [h1, h2, if_true] at e1
      simp only [hk, Kind.kw.injEq, String.reduceEq, false_and, if_false] at e1
      have : (pOptional (q :: ts2)).2 = ts2 := by simp [pOptional, nextIs, hqk]
      rw [this] at e1
      injection e1 with e1
      injection e1 with _ e1
      exact absurd (congrArg List.length e1) (by simp)

theorem pName_sound : PSound pName Name := by
  intro ts a rest h
  unfold pName at h
  replace h := Option.map_eq_some_iff.mp h; obtain ⟨⟨t, ts1⟩, e1, h⟩ := h
  cases h
  obtain ⟨rfl, ht⟩ := pIdent_some.mp e1
  exact ⟨[t], rfl, .mk ht⟩

theorem pMessageEnd_sound {n : Nat} {ts rest : List PTok} {a : Bool × List (String × Option Span)}
    (h : pMessageEnd n ts = some (a, rest)) :
    ∃ u c, ts = u ++ c :: rest ∧ Sign ';' c ∧ MessageEnd u a := by
  unfold pMessageEnd at h
  split at h
  · rename_i hc
    obtain ⟨t, ts', rfl, ht⟩ := nextIs_iff.mp hc
    replace h := Option.map_eq_some_iff.mp h; obtain ⟨⟨c, ts1⟩, e1, h⟩ := h
    cases h
    obtain ⟨e, hs⟩ := pTok_some.mp e1
    simp only [List.tail_cons] at e
    subst e
    exact ⟨[t], c, rfl, hs, .oneway ht⟩
  split at h
  · rename_i hc
    obtain ⟨t, ts', rfl, ht⟩ := nextIs_iff.mp hc
    replace h := Option.map_eq_some_iff.mp h; obtain ⟨⟨es, ts1⟩, e1, h⟩ := h
    cases h
    obtain ⟨u, c, e, hs, hu⟩ := pCommas_sound pName_sound n _ _ _ e1
    simp only [List.tail_cons] at e
    subst e
    exact ⟨t :: u, c, rfl, hs, .throws ht hu⟩
  · replace h := Option.map_eq_some_iff.mp h; obtain ⟨⟨c, ts1⟩, e1, h⟩ := h
    cases h
    obtain ⟨rfl, hc⟩ := pTok_some.mp e1
    exact ⟨[], c, rfl, hc, .none⟩

theorem Spec.Grammar.Result.ne_nil {ts : List PTok} {v : Option PlainType} (h : Result ts v) : ts ≠ [] := by
  cases h with
  | void => simp
  | plain h => exact Plain.ne_nil h

theorem pMessage_sound (n : Nat) : PSound (pMessage n) Spec.Grammar.Message := by
  intro ts a rest h
  unfold pMessage at h
  replace h := bind_some.mp h; obtain ⟨⟨as, ts1⟩, e1, h⟩ := h
  obtain ⟨u, rfl, hu⟩ := pAnnots_sound n _ _ _ e1
  replace h := bind_some.mp h; obtain ⟨⟨res, ts2⟩, e2, h⟩ := h
  obtain ⟨w, e, hw⟩ := pResult_sound n _ _ _ e2
  try simp only at e
  subst e
  replace h := bind_some.mp h; obtain ⟨⟨name, ts3⟩, e3, h⟩ := h
  obtain ⟨rfl, hi⟩ := pIdent_some.mp e3
  replace h := bind_some.mp h; obtain ⟨⟨l, ts4⟩, e4, h⟩ := h
  obtain ⟨rfl, hl⟩ := pTok_some.mp e4
  replace h := bind_some.mp h; obtain ⟨⟨ps, ts5⟩, e5, h⟩ := h
  obtain ⟨x, r, e, hr, hx⟩ := pCommasOpt_sound (pParam_sound n) e5
  try simp only at e
  subst e
  replace h := bind_some.mp h; obtain ⟨⟨me, ts6⟩, e6, h⟩ := h
  obtain ⟨y, c, e, hc, hy⟩ := pMessageEnd_sound e6
  try simp only at e
  subst e
  cases h
  rw [← List.append_assoc, firstIndex_append (by simp [Result.ne_nil hw])]
  refine ⟨u ++ w ++ name :: l :: x ++ r :: y ++ [c], by simp, ?_⟩
  rw [spanBetween_of (u := u ++ w ++ name :: l :: x ++ r :: y ++ [c]) (by simp)]
  exact .mk hu hw hi hl hx hr hy hc

theorem pBodyItem_sound (n : Nat) : PSound (pBodyItem n) Item := by
  intro ts a rest h
  unfold pBodyItem at h
  split at h
  · rename_i i ts1 e1
    cases h
    obtain ⟨u, rfl, hu⟩ := pImport_sound _ _ _ e1
    exact ⟨u, rfl, .import_ hu⟩
  · split at h
    · rename_i d s ts1 e1
      cases h
      obtain ⟨u, rfl, hu⟩ := pNamed_sound n _ _ _ e1
      exact ⟨u, rfl, .named hu⟩
    · replace h := Option.map_eq_some_iff.mp h; obtain ⟨⟨m, ts1⟩, e1, h⟩ := h
      cases h
      obtain ⟨u, rfl, hu⟩ := pMessage_sound n _ _ _ e1
      exact ⟨u, rfl, .message hu⟩

theorem pFileItem_sound (n : Nat) : PSound (pFileItem n) SchemaItem := by
  intro ts a rest h
  unfold pFileItem at h
  split at h
  · rename_i i ts1 e1
    cases h
    obtain ⟨u, rfl, hu⟩ := pImport_sound _ _ _ e1
    exact ⟨u, rfl, .import_ hu⟩
  · replace h := Option.map_eq_some_iff.mp h; obtain ⟨⟨⟨d, s⟩, ts1⟩, e1, h⟩ := h
    cases h
    obtain ⟨u, rfl, hu⟩ := pNamed_sound n _ _ _ e1
    exact ⟨u, rfl, .named hu⟩

theorem pNamespace_sound : PSound pNamespace NamespaceOpt := by
  intro ts a rest h
  unfold pNamespace at h
  split at h
  · rename_i hc
    obtain ⟨eq, ts3, rfl, heq⟩ := nextIs_iff.mp hc
    replace h := bind_some.mp h; obtain ⟨⟨d, ts4⟩, e4, h⟩ := h
    obtain ⟨e, hd⟩ := pIdent_some.mp e4
    simp only [List.tail_cons] at e
    subst e
    replace h := bind_some.mp h; obtain ⟨⟨s, ts5⟩, e5, h⟩ := h
    obtain ⟨rfl, hs⟩ := pTok_some.mp e5
    cases h
    exact ⟨[eq, d, s], rfl, .some heq hd hs⟩
  · cases h; exact ⟨[], rfl, .none⟩

theorem pMain_sound (n : Nat) : PSound (pMain n) MainOpt := by
  intro ts a rest h
  unfold pMain at h
  split at h
  · rename_i hc
    obtain ⟨k, ts3, rfl, hk⟩ := nextIs_iff.mp hc
    replace h := bind_some.mp h; obtain ⟨⟨f, ts4⟩, e4, h⟩ := h
    obtain ⟨u, e, hu⟩ := (pType_sound n).1 _ _ _ e4
    simp only [List.tail_cons] at e
    subst e
    replace h := bind_some.mp h; obtain ⟨⟨s, ts5⟩, e5, h⟩ := h
    obtain ⟨rfl, hs⟩ := pTok_some.mp e5
    cases h
    exact ⟨k :: u ++ [s], by simp, .some hk hu hs⟩
  · cases h; exact ⟨[], rfl, .none⟩

theorem pFile_sound {n : Nat} {ts : List PTok} {f : FileAst} (h : pFile n ts = some f) :
    File ts f := by
  unfold pFile at h
  split at h
  · rename_i p e
    cases h
    unfold pProtocol at e
    replace e := bind_some.mp e; obtain ⟨⟨as, ts1⟩, e1, h⟩ := e
    obtain ⟨u, rfl, hu⟩ := pAnnots_sound n _ _ _ e1
    replace h := bind_some.mp h; obtain ⟨⟨k, ts2⟩, e2, h⟩ := h
    obtain ⟨rfl, hk⟩ := pTok_some.mp e2
    rw [firstIndex_mid] at h
    replace h := bind_some.mp h; obtain ⟨⟨name, ts3⟩, e3, h⟩ := h
    obtain ⟨rfl, hi⟩ := pIdent_some.mp e3
    replace h := bind_some.mp h; obtain ⟨⟨l, ts4⟩, e4, h⟩ := h
    obtain ⟨rfl, hl⟩ := pTok_some.mp e4
    replace h := bind_some.mp h; obtain ⟨⟨body, ts5⟩, e5, h⟩ := h
    obtain ⟨w, c, e, hc, hw⟩ := pUntil_sound (pBodyItem_sound n) n _ _ _ e5
    try simp only at e
    subst e
    cases h
    have := File.protocol hu hk hi hl hw hc
    simpa using this
  · cases h
  · replace h := bind_some.mp h; obtain ⟨⟨ns, ts1⟩, e1, h⟩ := h
    obtain ⟨u, rfl, hu⟩ := pNamespace_sound _ _ _ e1
    replace h := bind_some.mp h; obtain ⟨⟨main, ts2⟩, e2, h⟩ := h
    obtain ⟨w, e, hw⟩ := pMain_sound n _ _ _ e2
    try simp only at e
    subst e
    replace h := bind_some.mp h; obtain ⟨body, e3, h⟩ := h
    cases h
    rw [← List.append_assoc]
    exact .schema hu hw (pAll_sound (pFileItem_sound n) n _ _ e3)

end Avdl
