import Verif.Lemmas.Tokens
import Verif.Lemmas.SourceLiterals
import Verif.Spec.SourceSpans
/-!
# Positions of tokens and of parts of the parse tree
-/

namespace Avdl
open Spec Spec.Lexing Spec.Grammar

theorem utf8Len_append (x y : List Char) : utf8Len (x ++ y) = utf8Len x + utf8Len y := by
  induction x with
  | nil => simp [utf8Len]
  | cons c x ih => simp only [List.cons_append, utf8Len, ih]; omega

theorem utf8Len_pos_of_ne {x : List Char} (h : x ≠ []) : 0 < utf8Len x := by
  cases x with
  | nil => exact absurd rfl h
  | cons c x => simp only [utf8Len]; have := c.utf8Size_pos; omega

/-! ## The token stream -/

theorem streamOf_place (ps : List Piece) : ∀ o, ∀ x ∈ streamOf o ps,
    ∃ before after, ps.flatMap (·.text) = before ++ x.text.toList ++ after ∧
      x.offset = o + utf8Len before := by
  induction ps with
  | nil => intro o x h; cases h
  | cons p ps ih =>
    intro o x h
    have later : x ∈ streamOf (o + utf8Len p.text) ps → ∃ before after,
        (p :: ps).flatMap (·.text) = before ++ x.text.toList ++ after ∧
          x.offset = o + utf8Len before := by
      intro h
      obtain ⟨b, a, e, ho⟩ := ih _ x h
      refine ⟨p.text ++ b, a, by simp [e], ?_⟩
      rw [ho, utf8Len_append]
      omega
    simp only [streamOf] at h
    split at h
    · split at h
      · exact later h
      · rcases List.mem_cons.mp h with rfl | h
        · exact ⟨[], ps.flatMap (·.text), by simp, by simp [utf8Len]⟩
        · exact later h
    · exact later h

/-- What the parser gets is the token with that number. -/
theorem parserTokens_place {file : String} {l : List LexToken} : ∀ {i : Nat} {t : PTok},
    t ∈ parserTokens file i l → ∃ j x, l[j]? = some x ∧ t.index = i + j ∧ x.kind = t.kind ∧
      x.kind ≠ .doc ∧ x.text = t.text ∧
      t.span = (startSpan ⟨x.offset, x.offset + utf8Len x.text.toList - 1⟩).map fun s =>
        ⟨s.1, s.2, file⟩ := by
  induction l with
  | nil => intro i t h; cases h
  | cons a l ih =>
    intro i t h
    simp only [parserTokens] at h
    have later : t ∈ parserTokens file (i + 1) l → ∃ j x, (a :: l)[j]? = some x ∧ t.index = i + j ∧
        x.kind = t.kind ∧ x.kind ≠ .doc ∧ x.text = t.text ∧
        t.span = (startSpan ⟨x.offset, x.offset + utf8Len x.text.toList - 1⟩).map fun s =>
          ⟨s.1, s.2, file⟩ := by
      intro h
      obtain ⟨j, x, hj, hi, h⟩ := ih h
      exact ⟨j + 1, x, hj, by omega, h⟩
    split at h
    · exact later h
    · rename_i hk
      rcases List.mem_cons.mp h with rfl | h
      · exact ⟨0, a, rfl, rfl, rfl, hk, rfl, rfl⟩
      · exact later h

/-- The numbers of the tokens the parser gets. -/
theorem parserTokens_indices {file : String} (l : List LexToken) : ∀ i,
    (parserTokens file i l).map (·.index) =
      (List.range' i l.length).filter fun n => (l[n - i]?).any (·.kind != .doc) := by
  induction l with
  | nil => intro i; rfl
  | cons a l ih =>
    intro i
    have hrest : (List.range' (i + 1) l.length).filter
          (fun n => ((a :: l)[n - i]?).any (·.kind != .doc)) =
        (List.range' (i + 1) l.length).filter fun n => (l[n - (i + 1)]?).any (·.kind != .doc) := by
      refine List.filter_congr fun n hn => ?_
      have := (List.mem_range'_1.mp hn).1
      obtain ⟨m, rfl⟩ : ∃ m, n = i + 1 + m := ⟨n - (i + 1), by omega⟩
      rw [show i + 1 + m - i = m + 1 by omega, show i + 1 + m - (i + 1) = m by omega]
      rfl
    simp only [parserTokens, List.length_cons, List.range'_succ, List.filter_cons, Nat.sub_self,
      List.getElem?_cons_zero, Option.any_some]
    rw [hrest, ← ih (i + 1)]
    split <;> rename_i hk <;> simp [hk]

/-- A token the parser gets has its text at its position and is the token with its number in the
stream. -/
def Placed (file : String) (text : List Char) (tokens : List Token) (t : PTok) : Prop :=
  (∃ s, t.span = some s ∧ s.file = file ∧ Spells text s t.text.toList) ∧
  (∃ x, tokens[t.index]? = some x ∧ x.text = t.text) ∧
  (∀ w, t.kind = .kw w → t.text = w) ∧ ∀ c, t.kind = .sym c → t.text = String.singleton c

theorem piece_ne_nil {cs : List Char} {ps : List Piece} (h : Pieces cs ps) :
    ∀ p ∈ ps, p.text ≠ [] := by
  induction h with
  | done => intro p hp; cases hp
  | token ht _ ih =>
    intro p hp
    rcases List.mem_cons.mp hp with rfl | hp
    · exact ht.1
    · exact ih p hp
  | unrecognised ht _ ih =>
    intro p hp
    rcases List.mem_cons.mp hp with rfl | hp
    · exact ht.1
    · exact ih p hp

theorem parserTokens_placed (file : String) (cs : List Char) :
    ∀ t ∈ parserTokens file 0 (streamOf 0 (lex cs)),
      Placed file cs ((streamOf 0 (lex cs)).map (fun t => ⟨t.kind.tokenType, t.text⟩) ++
        [⟨.other, "<EOF>"⟩]) t := by
  intro t ht
  obtain ⟨j, x, hj, hi, hk, _, htx, hs⟩ := parserTokens_place ht
  have hx : x ∈ streamOf 0 (lex cs) := List.mem_of_getElem? hj
  obtain ⟨before, after, e, ho⟩ := streamOf_place _ 0 x hx
  rw [pieces_text (lex_iff.mpr rfl)] at e
  obtain ⟨p, hp, hpk, hpt⟩ := streamOf_mem hx
  have hne : x.text.toList ≠ [] := by
    rw [hpt, String.toList_ofList]
    exact piece_ne_nil (lex_iff.mpr rfl) p hp
  have hpos := utf8Len_pos_of_ne hne
  obtain ⟨r, hr, hrk, hm⟩ := piece_rule (lex_iff.mpr rfl) p hp x.kind hpk
  have htext := (rule_text hr).mp hm
  rw [hrk, hk] at htext
  refine ⟨⟨⟨x.offset, utf8Len x.text.toList, file⟩, ?_, rfl, before, after, ?_, ?_, ?_⟩, ?_, ?_, ?_⟩
  · rw [hs]
    have : startSpan ⟨x.offset, x.offset + utf8Len x.text.toList - 1⟩ =
        some (x.offset, utf8Len x.text.toList) := by
      have hc : (x.offset : Int) ≥ 0 ∧
          (x.offset : Int) + utf8Len x.text.toList - 1 ≥ (x.offset : Int) := by omega
      have hs : spanFromOffsets x.offset (x.offset + utf8Len x.text.toList - 1) =
          (x.offset, utf8Len x.text.toList) := by
        rw [spanFromOffsets, if_pos hc, Prod.mk.injEq]
        omega
      simp only [startSpan, hs]
      rw [if_pos hpos]
    rw [this]
    rfl
  · rw [← htx]; exact e
  · show x.offset = _
    omega
  · rw [htx]
  · have hi' : t.index = j := by omega
    have hlt := (List.getElem?_eq_some_iff.mp hj).1
    refine ⟨⟨x.kind.tokenType, x.text⟩, ?_, htx⟩
    rw [hi', List.getElem?_append_left (by simpa using hlt), List.getElem?_map, hj]
    rfl
  · intro w hw
    rw [hw] at htext
    rw [← htx, hpt, (text_kw htext).2]
    exact String.ofList_toList
  · intro c hc
    rw [hc] at htext
    rw [← htx, hpt, (text_sym htext).2]
    rfl

/-! ## Trees -/

section
variable {file : String} {text : List Char} {tokens : List Token}

/-- The positions of what the rule derives are those of its tokens. -/
def Finds (file : String) (text : List Char) (tokens : List Token) {α : Type} (R : Rel α)
    (f : α → List Located) : Prop :=
  ∀ ts a, R ts a → (∀ t ∈ ts, Placed file text tokens t) → ∀ l ∈ f a, l.Right file text tokens

theorem Finds.many {α : Type} {R : Rel α} {f : α → List Located} (h : Finds file text tokens R f) :
    Finds file text tokens (Many R) (fun as => as.flatMap f) := by
  intro ts as hm
  induction hm with
  | nil => intro _ l hl; cases hl
  | cons h1 _ ih =>
    intro ht l hl
    simp only [List.flatMap_cons] at hl
    rcases List.mem_append.mp hl with hl | hl
    · exact h _ _ h1 (fun t hm => ht t (List.mem_append_left _ hm)) l hl
    · exact ih (fun t hm => ht t (List.mem_append_right _ hm)) l hl

theorem Finds.commas {α : Type} {R : Rel α} {f : α → List Located}
    (h : Finds file text tokens R f) :
    Finds file text tokens (Commas R) (fun as => as.flatMap f) := by
  intro ts as hm
  induction hm with
  | one h1 =>
    intro ht l hl
    simp only [List.flatMap_cons, List.flatMap_nil, List.append_nil] at hl
    exact h _ _ h1 ht l hl
  | more h1 _ _ ih =>
    intro ht l hl
    simp only [List.flatMap_cons] at hl
    rcases List.mem_append.mp hl with hl | hl
    · exact h _ _ h1 (fun t hm => ht t (List.mem_append_left _ hm)) l hl
    · exact ih (fun t hm => ht t (List.mem_append_right _ (List.mem_cons_of_mem _ hm))) l hl

theorem Finds.commasOpt {α : Type} {R : Rel α} {f : α → List Located}
    (h : Finds file text tokens R f) :
    Finds file text tokens (CommasOpt R) (fun as => as.flatMap f) := by
  intro ts as hm
  cases hm with
  | none => intro _ l hl; cases hl
  | some hm => exact h.commas _ _ hm

theorem placed_word {t : PTok} (h : Placed file text tokens t) :
    (Located.word t.text t.span).Right file text tokens := h.1

theorem placed_kw {t : PTok} {w : String} (h : Placed file text tokens t) (hw : t.kind = .kw w) :
    (Located.word w t.span).Right file text tokens := by
  rw [← h.2.2.1 w hw]; exact h.1

theorem placed_token {ts : List PTok} (h : ∀ t ∈ ts, Placed file text tokens t) (hne : ts ≠ []) :
    (Located.token (firstIndex ts) (firstSpan ts)).Right file text tokens := by
  cases ts with
  | nil => exact absurd rfl hne
  | cons t ts =>
    obtain ⟨⟨s, hs, hf, hsh⟩, ⟨x, hx, hxt⟩, _⟩ := h t (by simp)
    exact ⟨s, x, hs, hf, hx, by rw [hxt]; exact hsh⟩

mutual
theorem plain_finds : ∀ {ts : List PTok} {p : PlainType}, Plain ts p →
    (∀ t ∈ ts, Placed file text tokens t) → ∀ l ∈ plainSpans p, l.Right file text tokens
  | _, _, .array _ _ h _, ht, l, hl =>
      full_finds h (fun t hm => ht t (by simp [hm])) l (by simpa only [plainSpans] using hl)
  | _, _, .map _ _ h _, ht, l, hl =>
      full_finds h (fun t hm => ht t (by simp [hm])) l (by simpa only [plainSpans] using hl)
  | _, _, .union _ _ h _, ht, l, hl =>
      fullList_finds h (fun t hm => ht t (by simp [hm])) l (by simpa only [plainSpans] using hl)
  | _, _, .primitive _ _, _, _, hl => by simp [plainSpans] at hl
  | _, _, .named _ _ _, ht, l, hl => by
      simp only [plainSpans, List.mem_singleton] at hl
      subst hl
      exact placed_word (ht _ (by simp))
theorem full_finds : ∀ {ts : List PTok} {f : FullType}, Full ts f →
    (∀ t ∈ ts, Placed file text tokens t) → ∀ l ∈ typeSpans f, l.Right file text tokens
  | _, _, .mk _ h2, ht, l, hl =>
      plain_finds h2 (fun t hm => ht t (List.mem_append_right _ hm)) l
        (by simpa only [typeSpans] using hl)
theorem fullList_finds : ∀ {ts : List PTok} {fs : List FullType}, FullList ts fs →
    (∀ t ∈ ts, Placed file text tokens t) → ∀ l ∈ typesSpans fs, l.Right file text tokens
  | _, _, .one h, ht, l, hl =>
      full_finds h ht l (by simpa only [typesSpans, List.append_nil] using hl)
  | _, _, .more h1 _ h2, ht, l, hl => by
      simp only [typesSpans] at hl
      rcases List.mem_append.mp hl with hl | hl
      · exact full_finds h1 (fun t hm => ht t (List.mem_append_left _ hm)) l hl
      · exact fullList_finds h2 (fun t hm => ht t
          (List.mem_append_right _ (List.mem_cons_of_mem _ hm))) l hl
end

/-- A value begins with its first token. -/
theorem value_finds {ts : List PTok} {v : JVal} (h : JsonValue ts v)
    (ht : ∀ t ∈ ts, Placed file text tokens t) :
    (Located.word (valueStart v) (firstSpan ts)).Right file text tokens := by
  cases h with
  | object hl _ _ =>
    obtain ⟨h1, _, _, h2⟩ := ht _ (List.mem_append_left _ (List.mem_cons_self ..))
    have := h2 _ hl
    show ∃ s, _ ∧ _ ∧ Spells text s (String.toList "{")
    rw [show ("{" : String) = String.singleton '{' from rfl, ← this]
    exact h1
  | array hl _ _ =>
    obtain ⟨h1, _, _, h2⟩ := ht _ (List.mem_append_left _ (List.mem_cons_self ..))
    have := h2 _ hl
    show ∃ s, _ ∧ _ ∧ Spells text s (String.toList "[")
    rw [show ("[" : String) = String.singleton '[' from rfl, ← this]
    exact h1
  | literal h =>
    cases h with
    | null h => exact placed_kw (ht _ (by simp)) h
    | true h => exact placed_kw (ht _ (by simp)) h
    | false h => exact placed_kw (ht _ (by simp)) h
    | string _ => exact placed_word (ht _ (by simp))
    | int _ => exact placed_word (ht _ (by simp))
    | float _ => exact placed_word (ht _ (by simp))

theorem variable_finds : Finds file text tokens Variable varSpans := by
  intro ts v h ht l hl
  cases h with
  | plain _ _ =>
    simp only [varSpans, List.mem_singleton] at hl
    subst hl
    exact placed_token ht (by simp)
  | @default as name eq ts ps v _ _ _ h2 =>
    simp only [varSpans, List.mem_singleton] at hl
    subst hl
    have := value_finds h2 fun t hm => ht t (by simp [hm])
    obtain ⟨s, hs, h⟩ := this
    refine ⟨s, ?_, h⟩
    rw [hs]
    rfl

theorem field_finds : Finds file text tokens FieldDeclaration fieldDeclSpans := by
  intro ts d h ht l hl
  cases h with
  | mk h1 h2 _ =>
    simp only [fieldDeclSpans] at hl
    rcases List.mem_append.mp hl with hl | hl
    · exact full_finds h1 (fun t hm => ht t (by simp [hm])) l hl
    · exact variable_finds.commas _ _ h2 (fun t hm => ht t (by simp [hm])) l hl

theorem property_start {ts : List PTok} {a : Annot} (h : Property ts a) :
    ∃ t ts', ts = t :: ts' ∧ t.kind = .sym '@' := by
  cases h with
  | mk h _ _ _ _ => exact ⟨_, _, rfl, h⟩

theorem placed_declaration {as : List PTok} {ps : List Annot} {k : PTok} {w : String}
    (hp : Many Property as ps) (hk : k.kind = .kw w) (hw : w ∈ declarationStarts)
    (ht : ∀ t ∈ as ++ [k], Placed file text tokens t) :
    (Located.declaration (firstIndex (as ++ [k])) (firstSpan (as ++ [k]))).Right file text
      tokens := by
  have key : ∀ {t : PTok} {ts : List PTok}, as ++ [k] = t :: ts → t.text ∈ declarationStarts →
      (Located.declaration (firstIndex (as ++ [k])) (firstSpan (as ++ [k]))).Right file text
        tokens := by
    intro t ts e htx
    rw [e] at ht ⊢
    obtain ⟨⟨s, hs, hf, hsh⟩, ⟨x, hx, hxt⟩, _⟩ := ht t (by simp)
    exact ⟨s, x, hs, hf, hx, by rw [hxt]; exact hsh, by rw [hxt]; exact htx⟩
  cases hp with
  | nil =>
    refine key rfl ?_
    rw [(ht k (by simp)).2.2.1 w hk]
    exact hw
  | cons h _ =>
    obtain ⟨t, ts', rfl, hk'⟩ := property_start h
    refine key rfl ?_
    rw [(ht t (by simp)).2.2.2 _ hk']
    decide

theorem named_finds :
    Finds file text tokens Named
      (fun d => .declaration (namedStart d.1) d.2 :: namedSpans d.1) := by
  intro ts d h ht l hl
  cases h with
  | fixed hp hk _ _ _ _ _ | enum hp hk _ _ _ _ _ =>
    simp only [namedSpans, List.mem_singleton] at hl
    subst hl
    exact placed_declaration hp hk (by decide) fun t hm => ht t (by
      simp only [List.mem_append, List.mem_singleton] at hm; rcases hm with hm | rfl <;> simp [*])
  | record hp hk _ _ h2 _ | error hp hk _ _ h2 _ =>
    rcases List.mem_cons.mp hl with rfl | hl
    · exact placed_declaration hp hk (by decide) fun t hm => ht t (by
        simp only [List.mem_append, List.mem_singleton] at hm; rcases hm with hm | rfl <;> simp [*])
    · exact field_finds.many _ _ h2 (fun t hm => ht t (by simp [hm])) l hl

theorem import_finds : Finds file text tokens Import (fun i => [.word "import" i.span]) := by
  intro ts i h ht l hl
  cases h with
  | schema h _ _ _ | protocol h _ _ _ | idl h _ _ _ =>
    simp only [List.mem_singleton] at hl
    subst hl
    exact placed_kw (ht _ (by simp)) h

theorem parameter_finds :
    Finds file text tokens Parameter (fun p => typeSpans p.type ++ varSpans p.var) := by
  intro ts p h ht l hl
  cases h with
  | mk h1 h2 =>
    rcases List.mem_append.mp hl with hl | hl
    · exact full_finds h1 (fun t hm => ht t (by simp [hm])) l hl
    · exact variable_finds _ _ h2 (fun t hm => ht t (by simp [hm])) l hl

theorem name_finds : Finds file text tokens Name (fun e => [.word e.1 e.2]) := by
  intro ts e h ht l hl
  cases h with
  | mk _ =>
    simp only [List.mem_singleton] at hl
    subst hl
    exact placed_word (ht _ (by simp))

theorem message_finds : Finds file text tokens Spec.Grammar.Message messageSpans := by
  intro ts m h ht l hl
  cases h with
  | mk _ h2 _ _ h3 _ h4 _ =>
    simp only [messageSpans] at hl
    rcases List.mem_append.mp hl with hl | hl
    · rcases List.mem_append.mp hl with hl | hl
      · cases h2 with
        | void _ => cases hl
        | plain h2 _ => exact plain_finds h2 (fun t hm => ht t (by simp [hm])) l hl
      · exact parameter_finds.commasOpt _ _ h3 (fun t hm => ht t (by simp [hm])) l hl
    · cases h4 with
      | none => cases hl
      | oneway _ => cases hl
      | throws _ h4 =>
        refine name_finds.commas _ _ h4 (fun t hm => ht t (by simp [hm])) l ?_
        simpa [List.mem_flatMap, eq_comm] using hl

theorem item_finds : Finds file text tokens Item bodySpans := by
  intro ts i h ht l hl
  cases h with
  | import_ h => exact import_finds _ _ h ht l hl
  | named h => exact named_finds _ _ h ht l hl
  | message h => exact message_finds _ _ h ht l hl

theorem schemaItem_finds : Finds file text tokens SchemaItem fileItemSpans := by
  intro ts i h ht l hl
  cases h with
  | import_ h => exact import_finds _ _ h ht l hl
  | named h => exact named_finds _ _ h ht l hl

theorem file_finds : Finds file text tokens File fileSpans := by
  intro ts f h ht l hl
  cases h with
  | protocol _ _ _ _ h2 _ => exact item_finds.many _ _ h2 (fun t hm => ht t (by simp [hm])) l hl
  | schema _ h1 h2 =>
    simp only [fileSpans] at hl
    rcases List.mem_append.mp hl with hl | hl
    · cases h1 with
      | none => cases hl
      | some _ h1 _ => exact full_finds h1 (fun t hm => ht t (by simp [hm])) l hl
    · exact schemaItem_finds.many _ _ h2 (fun t hm => ht t (by simp [hm])) l hl

end

end Avdl
