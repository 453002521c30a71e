import Verif.Lemmas.ParserSound
/-!
# The parser accepts everything the grammar derives

`PComplete p R n ok`: on tokens that `R` derives, fewer than `n`, followed by something `ok`, the
parser returns the tree and leaves what follows.
-/

namespace Avdl
open Spec.Grammar

def PComplete {α : Type} (p : P α) (R : Rel α) (n : Nat) (ok : List PTok → Prop) : Prop :=
  ∀ u a rest, R u a → u.length < n → ok rest → p (u ++ rest) = some (a, rest)

theorem PComplete.mono {α : Type} {p : P α} {R : Rel α} {n m : Nat} {ok : List PTok → Prop}
    (h : PComplete p R n ok) (hm : m ≤ n) : PComplete p R m ok :=
  fun u a rest hr hl ho => h u a rest hr (by omega) ho

/-- Anything may follow. -/
def anyNext (_ : List PTok) : Prop := True

/-- The next token is not the sign. -/
def notNext (c : Char) (ts : List PTok) : Prop := nextIs (.sym c) ts = false

/-- What may follow a type. -/
def afterType (ts : List PTok) : Prop :=
  notNext '?' ts ∧ notNext '<' ts ∧ notNext '{' ts ∧ notNext '(' ts

theorem nextIs_cons {k : Kind} {t : PTok} {ts : List PTok} (h : t.kind = k) :
    nextIs k (t :: ts) = true := by simp [nextIs, h]

theorem nextIs_other {k k' : Kind} {t : PTok} {ts : List PTok} (h : t.kind = k') (hk : k' ≠ k) :
    nextIs k (t :: ts) = false := by simp [nextIs, h, hk]

theorem notNext_sign {c c' : Char} {t : PTok} {ts : List PTok} (h : Sign c' t) (hc : c' ≠ c) :
    notNext c (t :: ts) := nextIs_other h (by simpa using hc)

theorem notNext_word {c : Char} {w : String} {t : PTok} {ts : List PTok} (h : Word w t) :
    notNext c (t :: ts) := nextIs_other h (by simp)

theorem notNext_ident {c : Char} {t : PTok} {ts : List PTok} (h : Ident t) :
    notNext c (t :: ts) := by
  rcases h with h | ⟨w, h⟩ <;> exact nextIs_other h (by simp)

theorem afterType_sign {c : Char} {t : PTok} {ts : List PTok} (h : Sign c t)
    (hc : c ≠ '?' ∧ c ≠ '<' ∧ c ≠ '{' ∧ c ≠ '(') : afterType (t :: ts) :=
  ⟨notNext_sign h hc.1, notNext_sign h hc.2.1, notNext_sign h hc.2.2.1, notNext_sign h hc.2.2.2⟩

theorem afterType_ident {t : PTok} {ts : List PTok} (h : Ident t) : afterType (t :: ts) :=
  ⟨notNext_ident h, notNext_ident h, notNext_ident h, notNext_ident h⟩

theorem pTok_cons {k : Kind} {t : PTok} {ts : List PTok} (h : t.kind = k) :
    pTok k (t :: ts) = some (t, ts) := pTok_some.mpr ⟨rfl, h⟩

theorem pIdent_cons {t : PTok} {ts : List PTok} (h : Ident t) :
    pIdent (t :: ts) = some (t, ts) := pIdent_some.mpr ⟨rfl, h⟩

/-! ## Lists -/

theorem pCommas_complete {α : Type} {one : P α} {R : Rel α} {close : Kind} {m : Nat}
    {ok : List PTok → Prop} (h1 : PComplete one R m ok)
    (hok : ∀ c rest, c.kind = .sym ',' ∨ c.kind = close → ok (c :: rest))
    (hne : close ≠ .sym ',') {u : List PTok} {as : List α} (h : Commas R u as) :
    ∀ n c rest, u.length < m → u.length < n → c.kind = close →
      pCommas one close n (u ++ c :: rest) = some (as, rest) := by
  induction h with
  | @one ts a ha =>
    intro n c rest hm hn hc
    cases n with
    | zero => omega
    | succ n =>
      unfold pCommas
      simp [h1 _ _ _ ha hm (hok c rest (.inr hc)), nextIs_other hc hne, pTok_cons hc]
  | @more ts comma ts' a as ha hcm _ ih =>
    intro n c rest hm hn hc
    cases n with
    | zero => omega
    | succ n =>
      simp only [List.length_append, List.length_cons] at hm hn
      unfold pCommas
      have e := h1 _ _ (comma :: (ts' ++ c :: rest)) ha (by omega) (hok comma _ (.inl hcm))
      simp only [List.append_assoc, List.cons_append]
      simp [e, nextIs_cons hcm, ih n c rest (by omega) (by omega) hc]

/-- Derivations begin with a token that is not `k`. -/
def StartsNot {α : Type} (R : Rel α) (k : Kind) : Prop :=
  ∀ u a, R u a → ∃ t u', u = t :: u' ∧ t.kind ≠ k

theorem StartsNot.next {α : Type} {R : Rel α} {k : Kind} (h : StartsNot R k) {u rest : List PTok}
    {a : α} (hr : R u a) : nextIs k (u ++ rest) = false := by
  obtain ⟨t, u', rfl, hk⟩ := h _ _ hr
  simp [nextIs, hk]

theorem StartsNot.commas {α : Type} {R : Rel α} {k : Kind} (h : StartsNot R k) :
    StartsNot (Commas R) k := by
  intro u as hc
  cases hc with
  | one ha => exact h _ _ ha
  | more ha =>
    obtain ⟨t, u', rfl, hk⟩ := h _ _ ha
    exact ⟨t, _, rfl, hk⟩

theorem pCommasOpt_complete {α : Type} {one : P α} {R : Rel α} {close : Kind} {m : Nat}
    {ok : List PTok → Prop} (h1 : PComplete one R m ok)
    (hok : ∀ c rest, c.kind = .sym ',' ∨ c.kind = close → ok (c :: rest))
    (hne : close ≠ .sym ',') (hs : StartsNot R close) {u : List PTok} {as : List α}
    (h : CommasOpt R u as) {n : Nat} {c : PTok} {rest : List PTok} (hm : u.length < m)
    (hn : u.length < n) (hc : c.kind = close) :
    pCommasOpt one close n (u ++ c :: rest) = some (as, rest) := by
  unfold pCommasOpt
  cases h with
  | none => simp [nextIs_cons hc]
  | some h =>
    rw [hs.commas.next h]
    simpa using pCommas_complete h1 hok hne h n c rest hm hn hc

theorem pUntil_complete {α : Type} {one : P α} {R : Rel α} {close : Kind} {m : Nat}
    {ok : List PTok → Prop} (h1 : PComplete one R m ok)
    (hok : ∀ c rest, c.kind = close → ok (c :: rest))
    (hok' : ∀ u a rest, R u a → ok (u ++ rest))
    (hs : StartsNot R close) {u : List PTok} {as : List α} (h : Many R u as) :
    ∀ n c rest, u.length < m → u.length < n → c.kind = close →
      pUntil one close n (u ++ c :: rest) = some (as, rest) := by
  induction h with
  | nil =>
    intro n c rest hm hn hc
    cases n with
    | zero => simp at hn
    | succ n => simp [pUntil, nextIs_cons hc]
  | @cons ts ts' a as ha hmany ih =>
    intro n c rest hm hn hc
    cases n with
    | zero => omega
    | succ n =>
      obtain ⟨t, u', e, hk⟩ := hs _ _ ha
      have hlen : 0 < ts.length := by rw [e]; simp
      simp only [List.length_append] at hm hn
      have hnext : ok (ts' ++ c :: rest) := by
        cases hmany with
        | nil => exact hok c rest hc
        | cons hb _ => rw [List.append_assoc]; exact hok' _ _ _ hb
      unfold pUntil
      rw [List.append_assoc, hs.next ha]
      have e := h1 _ _ _ ha (by omega) hnext
      simp [e, ih n c rest (by omega) (by omega) hc]

theorem pAll_complete {α : Type} {one : P α} {R : Rel α} {m : Nat}
    {ok : List PTok → Prop} (h1 : PComplete one R m ok) (hok : ok [])
    (hok' : ∀ u a rest, R u a → ok (u ++ rest))
    (hs : ∀ u a, R u a → u ≠ []) {u : List PTok} {as : List α} (h : Many R u as) :
    ∀ n, u.length < m → u.length < n → pAll one n u = some as := by
  induction h with
  | nil =>
    intro n hm hn
    cases n with
    | zero => simp at hn
    | succ n => rfl
  | @cons ts ts' a as ha hmany ih =>
    intro n hm hn
    cases n with
    | zero => omega
    | succ n =>
      have hlen : 0 < ts.length := List.length_pos_iff.mpr (hs _ _ ha)
      simp only [List.length_append] at hm hn
      have hnext : ok ts' := by
        cases hmany with
        | nil => exact hok
        | cons hb _ => exact hok' _ _ _ hb
      have e := h1 _ _ _ ha (by omega) hnext
      cases ts with
      | nil => simp at hlen
      | cons t ts =>
        rw [List.cons_append] at e ⊢
        unfold pAll
        simp [e, ih n (by omega) (by omega)]

/-! ## JSON -/

theorem jsonLiteral_complete {ts : List PTok} {v : JVal} (h : Literal ts v) :
    ∃ t, ts = [t] ∧ jsonLiteral t = some v ∧ t.kind ≠ .sym '{' ∧ t.kind ≠ .sym '[' ∧
      t.kind ≠ .sym ']' := by
  cases h with
  | @null t h | @true t h | @false t h | @string t h | @int t h | @float t h =>
    refine ⟨t, rfl, ?_, ?_⟩ <;> simp_all [Word, jsonLiteral]

theorem pair_starts {R : Rel JVal} : StartsNot (Pair R) (.sym '}') := by
  rintro u a ⟨hk, _, _⟩
  exact ⟨_, _, rfl, by rw [hk]; simp⟩

theorem json_starts : StartsNot JsonValue (.sym ']') := by
  intro u a h
  cases h with
  | object h => exact ⟨_, _, rfl, by rw [h]; simp⟩
  | array h => exact ⟨_, _, rfl, by rw [h]; simp⟩
  | literal h =>
    obtain ⟨t, rfl, _, _, _, h⟩ := jsonLiteral_complete h
    exact ⟨t, _, rfl, h⟩

theorem pPair_complete {p : P JVal} {R : Rel JVal} {n : Nat} (h1 : PComplete p R n anyNext) :
    PComplete (pPair p) (Pair R) n anyNext := by
  rintro u a rest ⟨hk, hc, hv⟩ hl _
  simp only [List.length_cons] at hl
  simp [pPair, pTok_cons hk, pTok_cons hc, h1 _ _ rest hv (by omega) trivial]

theorem pJson_complete (n : Nat) : PComplete (pJson n) JsonValue (n + 1) anyNext := by
  induction n with
  | zero =>
    intro u a rest h hl _
    exact absurd (List.length_eq_zero_iff.mp (by omega)) h.ne_nil
  | succ n ih =>
    intro u a rest h hl _
    cases h with
    | @object l ts r m hL hm hr =>
      simp only [List.length_append, List.length_cons, List.length_nil] at hl
      have e := pCommasOpt_complete (pPair_complete ih) (fun _ _ _ => trivial) (by simp)
        pair_starts hm (n := n) (c := r) (rest := rest) (by omega) (by omega) hr
      simp only [List.cons_append, List.append_assoc, List.nil_append]
      unfold pJson
      rw [if_pos (show l.kind = _ from hL), e]
      rfl
    | @array l ts r m hL hm hr =>
      simp only [List.length_append, List.length_cons, List.length_nil] at hl
      have e := pCommasOpt_complete ih (fun _ _ _ => trivial) (by simp)
        json_starts hm (n := n) (c := r) (rest := rest) (by omega) (by omega) hr
      simp only [List.cons_append, List.append_assoc, List.nil_append]
      unfold pJson
      rw [if_neg (by rw [hL]; simp), if_pos (show l.kind = _ from hL), e]
      rfl
    | literal h =>
      obtain ⟨t, rfl, hv, h1, h2, _⟩ := jsonLiteral_complete h
      simp only [List.cons_append, List.nil_append]
      unfold pJson
      rw [if_neg h1, if_neg h2, hv]
      rfl

theorem pAnnot_complete (n : Nat) : PComplete (pAnnot n) Property (n + 1) anyNext := by
  rintro u a rest h hl _
  cases h with
  | @mk a name l ts r v ha hn hL hv hr =>
    simp only [List.length_append, List.length_cons, List.length_nil] at hl
    simp [pAnnot, pTok_cons ha, pIdent_cons hn, pTok_cons hL,
      pJson_complete n _ _ (r :: rest) hv (by omega) trivial, pTok_cons hr]
    exact spanBetween_of (by simp)

theorem pAnnots_complete (n : Nat) : PComplete (pAnnots n) (Many Property) n (notNext '@') := by
  induction n with
  | zero => intro u a rest _ hl _; omega
  | succ n ih =>
    intro u as rest h hl hok
    cases h with
    | nil => unfold pAnnots; rw [List.nil_append, hok]; rfl
    | @cons ts ts' a as ha has =>
      have e := pAnnot_complete n _ _ (ts' ++ rest) ha
        (by simp only [List.length_append] at hl; omega) trivial
      cases ha with
      | @mk at_ name l js r v hat hn hL hv hr =>
        simp only [List.length_append, List.length_cons, List.length_nil] at hl
        have e' := ih _ _ rest has (by omega) hok
        rw [List.append_assoc]
        unfold pAnnots
        rw [if_pos (by simp only [List.cons_append]; exact nextIs_cons hat), e]
        simp [e']

/-! ## Types -/

theorem question_complete {q : List PTok} {b : Bool} {rest : List PTok} (h : Question q b)
    (hr : afterType rest) :
    pOptional (q ++ rest) = (b, rest) ∧ notNext '<' (q ++ rest) ∧ notNext '{' (q ++ rest) ∧
      notNext '(' (q ++ rest) := by
  cases h with
  | no =>
    refine ⟨?_, hr.2⟩
    have h : nextIs (.sym '?') rest = false := hr.1
    simp [pOptional, h]
  | yes h =>
    refine ⟨?_, notNext_sign h (by decide), notNext_sign h (by decide), notNext_sign h (by decide)⟩
    simp [pOptional, nextIs_cons h]

/-- `pPlain` on a single name or keyword. -/
theorem pPlain_name {n : Nat} {t : PTok} {q rest : List PTok} {b : Bool} (h : Question q b)
    (hr : afterType rest) :
    pPlain (n + 1) (t :: (q ++ rest)) =
      match simplePrim t.kind with
        | some p => some (.prim p b (nodeSpan (t :: q)), rest)
        | none => if t.kind.isIdent then some (.named t.text t.span b, rest) else none := by
  obtain ⟨e, h1, h2, h3⟩ := question_complete h hr
  unfold notNext at h1 h2 h3
  unfold pPlain
  simp only [h1, h2, h3, e]
  rw [spanBetween_of (u := t :: q) (by simp)]
  cases simplePrim t.kind <;> simp

theorem pDecimal_complete {d l : PTok} {u : List PTok} {p : PrimTok} {rest : List PTok}
    (h : Primitive (d :: l :: u) p) : pDecimal (u ++ rest) = some (p, rest) := by
  cases h with
  | decimal _ _ hp hr =>
    simp [pDecimal, pTok_cons hp, nextIs_other hr, pTok_cons hr]
  | decimalScale _ _ hp hc hs hr =>
    simp [pDecimal, pTok_cons hp, nextIs_cons hc, pTok_cons hs, pTok_cons hr]

theorem primitive_decimal {u : List PTok} {p : PrimTok} (h : Primitive u p) :
    (∃ t w, u = [t] ∧ Word w t ∧ SimpleType w p) ∨
    (∃ d l u', u = d :: l :: u' ∧ Word "decimal" d ∧ Sign '(' l) := by
  cases h with
  | simple h h' => exact .inl ⟨_, _, rfl, h, h'⟩
  | decimal h h' => exact .inr ⟨_, _, _, rfl, h, h'⟩
  | decimalScale h h' => exact .inr ⟨_, _, _, rfl, h, h'⟩

theorem plain_start {u : List PTok} {t : PlainType} (h : Plain u t) :
    ∃ k u', u = k :: u' ∧ Ident k := by
  cases h with
  | array h => exact ⟨_, _, rfl, .inr ⟨_, h⟩⟩
  | map h => exact ⟨_, _, rfl, .inr ⟨_, h⟩⟩
  | union h => exact ⟨_, _, rfl, .inr ⟨_, h⟩⟩
  | primitive h =>
    rcases primitive_decimal h with ⟨t, w, rfl, h, _⟩ | ⟨d, l, u', rfl, h, _⟩
    · exact ⟨_, _, rfl, .inr ⟨_, h⟩⟩
    · exact ⟨_, _, rfl, .inr ⟨_, h⟩⟩
  | named h => exact ⟨_, _, rfl, h⟩

/-- The first token of a list of annotations followed by a name. -/
theorem annots_start {as u : List PTok} {ps : List Annot} (h : Many Property as ps)
    (hu : ∃ k u', u = k :: u' ∧ Ident k) :
    ∃ k u', as ++ u = k :: u' ∧ (Ident k ∨ Sign '@' k) := by
  cases h with
  | nil => obtain ⟨k, u', rfl, hk⟩ := hu; exact ⟨k, u', rfl, .inl hk⟩
  | cons h _ =>
    cases h with
    | mk ha => exact ⟨_, _, rfl, .inr ha⟩

theorem full_start {u : List PTok} {t : FullType} (h : Full u t) :
    ∃ k u', u = k :: u' ∧ (Ident k ∨ Sign '@' k) := by
  cases h with
  | mk has ht => exact annots_start has (plain_start ht)

theorem afterType_commas {close : Char}
    (h : close ≠ '?' ∧ close ≠ '<' ∧ close ≠ '{' ∧ close ≠ '(') (c : PTok) (rest : List PTok)
    (hc : c.kind = .sym ',' ∨ c.kind = .sym close) : afterType (c :: rest) := by
  rcases hc with hc | hc
  · exact afterType_sign hc (by decide)
  · exact afterType_sign hc h

theorem pType_complete (n : Nat) :
    PComplete (pFull n) Full n afterType ∧ PComplete (pPlain n) Plain (n + 1) afterType := by
  induction n with
  | zero =>
    constructor
    · intro u a rest _ hl _; omega
    · intro u a rest h hl _
      exact absurd (List.length_eq_zero_iff.mp (by omega)) h.ne_nil
  | succ n ih =>
    constructor
    · intro u a rest h hl hok
      cases h with
      | @mk as ts ps t has ht =>
        have hpos : 0 < ts.length := List.length_pos_iff.mpr ht.ne_nil
        simp only [List.length_append] at hl
        obtain ⟨k, u', e, hk⟩ := plain_start ht
        have e1 := pAnnots_complete n _ _ (ts ++ rest) has (by omega)
          (by rw [e]; exact notNext_ident hk)
        have e2 := ih.2 _ _ rest ht (by omega) hok
        rw [List.append_assoc]
        unfold pFull
        simp only [e1, e2, Option.bind_eq_bind, Option.bind_some, Option.pure_def]
        rw [spanBetween_of (u := as ++ ts) (by simp)]
    · intro u a rest h hl hok
      cases h with
      | @array a l ts r f ha hL hf hr =>
        simp only [List.length_append, List.length_cons, List.length_nil] at hl
        have e := ih.1 _ _ (r :: rest) hf (by omega) (afterType_sign hr (by decide))
        simp only [List.cons_append, List.append_assoc, List.nil_append]
        unfold pPlain
        rw [if_pos ⟨ha, nextIs_cons hL⟩]
        simp [e, pTok_cons hr]
      | @map a l ts r f ha hL hf hr =>
        simp only [List.length_append, List.length_cons, List.length_nil] at hl
        have e := ih.1 _ _ (r :: rest) hf (by omega) (afterType_sign hr (by decide))
        simp only [List.cons_append, List.append_assoc, List.nil_append]
        unfold pPlain
        rw [if_neg (by rw [show a.kind = _ from ha]; simp), if_pos ⟨ha, nextIs_cons hL⟩]
        simp [e, pTok_cons hr]
      | @union a l ts r f ha hL hf hr =>
        simp only [List.length_append, List.length_cons, List.length_nil] at hl
        have e := pCommas_complete ih.1 (afterType_commas (close := '}') (by decide)) (by simp)
          (commas_of_fullList hf) n r rest (by omega) (by omega) hr
        simp only [List.cons_append, List.append_assoc, List.nil_append]
        unfold pPlain
        rw [if_neg (by rw [show a.kind = _ from ha]; simp),
          if_neg (by rw [show a.kind = _ from ha]; simp), if_pos ⟨ha, nextIs_cons hL⟩]
        simp [e]
      | @primitive ts q p b hp hq =>
        rcases primitive_decimal hp with ⟨t, w, rfl, hw, hs⟩ | ⟨d, l, u', rfl, hd, hL⟩
        · simp only [List.cons_append, List.nil_append]
          rw [pPlain_name hq hok, simplePrim_some.mpr ⟨w, hw, hs⟩]
        · have e := pDecimal_complete (rest := q ++ rest) hp
          simp only [List.cons_append, List.append_assoc]
          unfold pPlain
          rw [if_neg (by rw [show d.kind = _ from hd]; simp),
            if_neg (by rw [show d.kind = _ from hd]; simp),
            if_neg (by rw [show d.kind = _ from hd]; simp), if_pos ⟨hd, nextIs_cons hL⟩]
          simp [e, (question_complete hq hok).1]
          exact spanBetween_of (by simp)
      | @named t q b hi hn hq =>
        have : simplePrim t.kind = none := by
          cases hp : simplePrim t.kind with
          | none => rfl
          | some p =>
            obtain ⟨w, hw, hs⟩ := simplePrim_some.mp hp
            exact absurd hs (hn w p hw)
        rw [List.cons_append, pPlain_name hq hok, this]
        simp [isIdent_iff.mpr hi]

/-! ## Declarations -/

theorem pVar_complete (n : Nat) : PComplete (pVar n) Variable n (notNext '=') := by
  intro u a rest h hl hok
  cases h with
  | @plain as name ps has hn =>
    simp only [List.length_append, List.length_cons, List.length_nil] at hl
    have e := pAnnots_complete n _ _ (name :: rest) has (by omega) (notNext_ident hn)
    have hok : nextIs (.sym '=') rest = false := hok
    simp only [List.append_assoc, List.cons_append, List.nil_append]
    unfold pVar
    simp [e, pIdent_cons hn, hok, firstIndex_mid as name rest, firstSpan_mid as name rest]
  | @default as name eq ts ps v has hn heq hv =>
    simp only [List.length_append, List.length_cons] at hl
    have e := pAnnots_complete n _ _ (name :: eq :: (ts ++ rest)) has (by omega)
      (notNext_ident hn)
    have e2 := pJson_complete n _ _ rest hv (by omega) trivial
    simp only [List.append_assoc, List.cons_append]
    unfold pVar
    simp [e, pIdent_cons hn, nextIs_cons heq, e2, firstIndex_mid as name (eq :: (ts ++ rest)),
      firstSpan_mid as name (eq :: (ts ++ rest)), firstSpan_append hv.ne_nil]
    exact spanBetween_of rfl

theorem var_start {u : List PTok} {v : VarDecl} (h : Variable u v) :
    ∃ k u', u = k :: u' ∧ (Ident k ∨ Sign '@' k) := by
  cases h with
  | plain has hn => exact annots_start has ⟨_, _, rfl, hn⟩
  | default has hn => exact annots_start has ⟨_, _, rfl, hn⟩

theorem afterType_start {k : PTok} {ts : List PTok} (h : Ident k ∨ Sign '@' k) :
    afterType (k :: ts) := by
  rcases h with h | h
  · exact afterType_ident h
  · exact afterType_sign h (by decide)

theorem notNext_start {c : Char} {k : PTok} {ts : List PTok} (h : Ident k ∨ Sign '@' k)
    (hc : c ≠ '@') : notNext c (k :: ts) := by
  rcases h with h | h
  · exact notNext_ident h
  · exact notNext_sign h hc.symm

theorem kind_start {c : Char} {k : PTok} (h : Ident k ∨ Sign '@' k) (hc : c ≠ '@') :
    k.kind ≠ .sym c := by
  rcases h with (h | ⟨w, h⟩) | h <;> rw [h] <;> simp
  exact hc.symm

theorem commas_start {α : Type} {R : Rel α} {Q : PTok → Prop}
    (h : ∀ u a, R u a → ∃ k u', u = k :: u' ∧ Q k) {u : List PTok} {as : List α}
    (hc : Commas R u as) : ∃ k u', u = k :: u' ∧ Q k := by
  cases hc with
  | one ha => exact h _ _ ha
  | more ha =>
    obtain ⟨t, u', rfl, hk⟩ := h _ _ ha
    exact ⟨t, _, rfl, hk⟩

theorem notNext_commas {close : Char} (h : close ≠ '=') (c : PTok) (rest : List PTok)
    (hc : c.kind = .sym ',' ∨ c.kind = .sym close) : notNext '=' (c :: rest) := by
  rcases hc with hc | hc
  · exact notNext_sign hc (by decide)
  · exact notNext_sign hc h

theorem pField_complete (n : Nat) : PComplete (pField n) FieldDeclaration n anyNext := by
  intro u a rest h hl hok
  cases h with
  | @mk ts vs semi f ds hf hv hs =>
    simp only [List.length_append, List.length_cons, List.length_nil] at hl
    obtain ⟨k, u', ek, hk⟩ := commas_start (fun _ _ h => var_start h) hv
    have e := (pType_complete n).1 _ _ (vs ++ semi :: rest) hf (by omega)
      (by rw [ek]; exact afterType_start hk)
    have e2 := pCommas_complete (pVar_complete n) (notNext_commas (close := ';') (by decide))
      (by simp) hv n semi rest (by omega) (by omega) hs
    simp only [List.append_assoc, List.cons_append, List.nil_append]
    unfold pField
    simp [e, e2, firstIndex_append hf.ne_nil]

theorem field_start {u : List PTok} {v : FieldDecl} (h : FieldDeclaration u v) :
    ∃ k u', u = k :: u' ∧ (Ident k ∨ Sign '@' k) := by
  cases h with
  | mk hf =>
    obtain ⟨k, u', rfl, hk⟩ := full_start hf
    exact ⟨k, _, rfl, hk⟩

theorem pSymbol_complete (n : Nat) : PComplete (pSymbol n) EnumSymbol n anyNext := by
  intro u a rest h hl _
  cases h with
  | @mk as name ps has hn =>
    simp only [List.length_append, List.length_cons, List.length_nil] at hl
    have e := pAnnots_complete n _ _ (name :: rest) has (by omega) (notNext_ident hn)
    simp only [List.append_assoc, List.cons_append, List.nil_append]
    unfold pSymbol
    simp [e, pIdent_cons hn]
    exact spanBetween_of (by simp)

theorem symbol_start {u : List PTok} {v : String × Option Span} (h : EnumSymbol u v) :
    ∃ k u', u = k :: u' ∧ (Ident k ∨ Sign '@' k) := by
  cases h with
  | mk has hn => exact annots_start has ⟨_, _, rfl, hn⟩

theorem pEnumDefault_complete (n : Nat) : PComplete pEnumDefault EnumDefault n (notNext '=') := by
  intro u a rest h _ hok
  cases h with
  | none =>
    have hok : nextIs (.sym '=') rest = false := hok
    simp [pEnumDefault, hok]
  | some heq hn hs => simp [pEnumDefault, nextIs_cons heq, pIdent_cons hn, pTok_cons hs]

theorem startsNot_of {α : Type} {R : Rel α}
    (h : ∀ u a, R u a → ∃ k u', u = k :: u' ∧ (Ident k ∨ Sign '@' k)) {c : Char} (hc : c ≠ '@') :
    StartsNot R (.sym c) := by
  intro u a hr
  obtain ⟨k, u', e, hk⟩ := h _ _ hr
  exact ⟨k, u', e, kind_start hk hc⟩

theorem word_ident {w : String} {t : PTok} (h : Word w t) : Ident t := .inr ⟨w, h⟩

theorem pNamed_complete (n : Nat) : PComplete (pNamed n) Named n (notNext '=') := by
  intro u a rest h hl hok
  cases h with
  | @fixed as k name l size r semi ps has hk hn hL hsz hr hs =>
    simp only [List.length_append, List.length_cons, List.length_nil] at hl
    have e := pAnnots_complete n _ _ (k :: name :: l :: size :: r :: semi :: rest) has (by omega)
      (notNext_word hk)
    simp only [List.append_assoc, List.cons_append, List.nil_append]
    unfold pNamed
    simp [e, firstIndex_mid as k, firstSpan_mid as k, pIdent_cons hn, pTok_cons hL, pTok_cons hsz,
      pTok_cons hr, pTok_cons hs, show k.kind = _ from hk]
  | @enum as k name l ts r d ps syms dflt has hk hn hL hsy hr hd =>
    simp only [List.length_append, List.length_cons] at hl
    have e := pAnnots_complete n _ _ (k :: name :: l :: (ts ++ r :: (d ++ rest))) has (by omega)
      (notNext_word hk)
    have e2 := pCommasOpt_complete (pSymbol_complete n) (fun _ _ _ => trivial) (by simp)
      (startsNot_of (fun _ _ h => symbol_start h) (by decide)) hsy (n := n) (c := r)
      (rest := d ++ rest) (by omega) (by omega) hr
    have e3 := pEnumDefault_complete n _ _ rest hd (by omega) hok
    simp only [List.append_assoc, List.cons_append]
    unfold pNamed
    simp [e, firstIndex_mid as k, firstSpan_mid as k, pIdent_cons hn, pTok_cons hL, e2, e3,
      show k.kind = _ from hk]
  | @record as k name l ts r ps fs has hk hn hL hf hr =>
    simp only [List.length_append, List.length_cons, List.length_nil] at hl
    have e := pAnnots_complete n _ _ (k :: name :: l :: (ts ++ r :: rest)) has (by omega)
      (notNext_word hk)
    have e2 := pUntil_complete (pField_complete n) (fun _ _ _ => trivial) (fun _ _ _ _ => trivial)
      (startsNot_of (fun _ _ h => field_start h) (by decide)) hf n r rest (by omega) (by omega) hr
    simp only [List.append_assoc, List.cons_append, List.nil_append]
    unfold pNamed
    simp [e, firstIndex_mid as k, firstSpan_mid as k, pIdent_cons hn, pTok_cons hL, e2,
      show k.kind = _ from hk]
  | @error as k name l ts r ps fs has hk hn hL hf hr =>
    simp only [List.length_append, List.length_cons, List.length_nil] at hl
    have e := pAnnots_complete n _ _ (k :: name :: l :: (ts ++ r :: rest)) has (by omega)
      (notNext_word hk)
    have e2 := pUntil_complete (pField_complete n) (fun _ _ _ => trivial) (fun _ _ _ _ => trivial)
      (startsNot_of (fun _ _ h => field_start h) (by decide)) hf n r rest (by omega) (by omega) hr
    simp only [List.append_assoc, List.cons_append, List.nil_append]
    unfold pNamed
    simp [e, firstIndex_mid as k, firstSpan_mid as k, pIdent_cons hn, pTok_cons hL, e2,
      show k.kind = _ from hk]

theorem pImport_complete (n : Nat) : PComplete pImport Import n anyNext := by
  intro u a rest h _ _
  cases h with
  | schema hi hk hs hr | protocol hi hk hs hr | idl hi hk hs hr =>
    simp [pImport, pTok_cons hi, show _ = _ from hk, importKind, pTok_cons hs, pTok_cons hr,
      firstSpan]

theorem pParam_complete (n : Nat) : PComplete (pParam n) Parameter n (notNext '=') := by
  intro u a rest h hl hok
  cases h with
  | @mk ts vs f v hf hv =>
    simp only [List.length_append] at hl
    obtain ⟨k, u', ek, hk⟩ := var_start hv
    have e := (pType_complete n).1 _ _ (vs ++ rest) hf (by omega)
      (by rw [ek]; exact afterType_start hk)
    have e2 := pVar_complete n _ _ rest hv (by omega) hok
    rw [List.append_assoc]
    unfold pParam
    simp [e, e2, firstIndex_append hf.ne_nil]
    exact spanBetween_of (by simp)

theorem param_start {u : List PTok} {v : Param} (h : Parameter u v) :
    ∃ k u', u = k :: u' ∧ (Ident k ∨ Sign '@' k) := by
  cases h with
  | mk hf =>
    obtain ⟨k, u', rfl, hk⟩ := full_start hf
    exact ⟨k, _, rfl, hk⟩

theorem void_not_simple (p : PrimTok) : ¬ SimpleType "void" p := by
  intro h
  have := simplePrim_some.mpr ⟨"void", rfl, h⟩
  simp [simplePrim] at this

theorem pResult_complete (n : Nat) : PComplete (pResult n) Result (n + 1) afterType := by
  intro u a rest h hl hok
  cases h with
  | void ht =>
    have h : nextIs (.sym '?') rest = false := hok.1
    simp [pResult, nextIs_cons ht, h]
  | plain hp hv =>
    have e := (pType_complete n).2 _ _ rest hp hl hok
    unfold pResult
    rw [if_neg, e]
    · rfl
    · rintro ⟨h1, h2⟩
      obtain ⟨t, ts', e', ht⟩ := nextIs_iff.mp h1
      have hk : ∀ {w : String} {k : PTok} {us : List PTok}, k :: us = t :: ts' → Word w k →
          w = "void" := by
        intro w k us he hw
        injection he with he _
        subst he
        have := hw.symm.trans ht
        simpa using this
      cases hp with
      | array h => exact absurd (hk e' h) (by decide)
      | map h => exact absurd (hk e' h) (by decide)
      | union h => exact absurd (hk e' h) (by decide)
      | primitive h hq =>
        rcases primitive_decimal h with ⟨t, w, rfl, h, hs⟩ | ⟨d, l, u', rfl, h, _⟩
        · have := hk e' h
          exact absurd hs (by rw [this]; exact void_not_simple _)
        · exact absurd (hk e' h) (by decide)
      | named _ _ hq =>
        cases hq with
        | no =>
          injection e' with he _
          subst he
          exact hv _ rfl ht
        | yes hq => exact h2 (by simp [nextIs_cons hq])

theorem result_start {u : List PTok} {v : Option PlainType} (h : Result u v) :
    ∃ k u', u = k :: u' ∧ Ident k := by
  cases h with
  | void h => exact ⟨_, _, rfl, word_ident h⟩
  | plain h => exact plain_start h

theorem pName_complete (n : Nat) : PComplete pName Name n anyNext := by
  rintro u a rest ⟨h⟩ _ _
  simp [pName, pIdent_cons h]

theorem pMessageEnd_complete {n : Nat} {u : List PTok} {a : Bool × List (String × Option Span)}
    {c : PTok} {rest : List PTok} (h : MessageEnd u a) (hl : u.length < n) (hc : Sign ';' c) :
    pMessageEnd n (u ++ c :: rest) = some (a, rest) := by
  unfold pMessageEnd
  cases h with
  | none =>
    simp [nextIs_other (k := .kw "oneway") hc, nextIs_other (k := .kw "throws") hc, pTok_cons hc]
  | oneway ht => simp [nextIs_cons ht, pTok_cons hc]
  | throws ht hn =>
    simp only [List.length_cons] at hl
    have e := pCommas_complete (pName_complete n) (fun _ _ _ => trivial) (by simp) hn n c rest
      (by omega) (by omega) hc
    simp [nextIs_cons ht, nextIs_other (k := .kw "oneway") ht, e]

theorem pMessage_complete (n : Nat) : PComplete (pMessage n) Spec.Grammar.Message n anyNext := by
  intro u a rest h hl _
  cases h with
  | @mk as rs name l ps r es semi annots res params e has hres hn hL hps hr hes hs =>
    simp only [List.length_append, List.length_cons, List.length_nil] at hl
    obtain ⟨k, u', ek, hk⟩ := result_start hres
    have e1 := pAnnots_complete n _ _ (rs ++ name :: l :: (ps ++ r :: (es ++ semi :: rest))) has
      (by omega) (by rw [ek]; exact notNext_ident hk)
    have e2 := pResult_complete n _ _ (name :: l :: (ps ++ r :: (es ++ semi :: rest))) hres
      (by omega) (afterType_ident hn)
    have e3 := pCommasOpt_complete (pParam_complete n) (notNext_commas (close := ')') (by decide))
      (by simp) (startsNot_of (fun _ _ h => param_start h) (by decide)) hps (n := n) (c := r)
      (rest := es ++ semi :: rest) (by omega) (by omega) hr
    have e4 := pMessageEnd_complete (rest := rest) hes (n := n) (by omega) hs
    have e5 : firstIndex (as ++ (rs ++ name :: l :: (ps ++ r :: (es ++ semi :: rest)))) =
        firstIndex (as ++ rs) := by
      rw [← List.append_assoc, firstIndex_append (by rw [ek]; simp)]
    simp only [List.append_assoc, List.cons_append, List.nil_append]
    unfold pMessage
    simp [e1, e2, e3, e4, e5, pIdent_cons hn, pTok_cons hL]
    exact spanBetween_of (by simp)

/-! ## Alternatives -/

theorem message_start {u : List PTok} {m : MessageDecl} (h : Spec.Grammar.Message u m) :
    ∃ k u', u = k :: u' ∧ (Ident k ∨ Sign '@' k) := by
  cases h with
  | mk has hres =>
    obtain ⟨k, u', e, hk⟩ := annots_start has (result_start hres)
    rw [e]
    exact ⟨k, _, rfl, hk⟩

theorem named_start {u : List PTok} {d : NamedDecl × Option Span} (h : Named u d) :
    ∃ k u', u = k :: u' ∧ (Ident k ∨ Sign '@' k) := by
  cases h with
  | fixed has hk | enum has hk | record has hk | error has hk =>
    first
    | exact annots_start has ⟨_, _, rfl, word_ident hk⟩
    | (obtain ⟨k, u', e, hk⟩ := annots_start has ⟨_, _, rfl, word_ident hk⟩
       exact ⟨k, _, by rw [List.append_assoc, List.cons_append, e], hk⟩)

theorem import_start {u : List PTok} {i : ImportStmt} (h : Import u i) :
    ∃ k u', u = k :: u' ∧ Word "import" k := by
  cases h with
  | schema h | protocol h | idl h => exact ⟨_, _, rfl, h⟩

/-- A declaration does not begin with an import. -/
theorem pImport_named {u rest : List PTok} {d : NamedDecl × Option Span} (h : Named u d) :
    pImport (u ++ rest) = none := by
  have key : ∀ {as : List PTok} {ps : List Annot} {k : PTok} {us : List PTok} {w : String},
      Many Property as ps → Word w k → w ≠ "import" → pImport (as ++ k :: us) = none := by
    intro as ps k us w has hk hw
    have : pTok (.kw "import") (as ++ k :: us) = none := by
      cases has with
      | nil =>
        simp [pTok, show k.kind = _ from hk, hw]
      | cons h _ =>
        cases h with
        | mk ha => simp [pTok, show _ = _ from ha]
    simp [pImport, this]
  cases h with
  | fixed has hk | enum has hk | record has hk | error has hk =>
    simp only [List.append_assoc, List.cons_append]
    exact key has hk (by decide)

/-- A message does not begin with an import. -/
theorem pImport_message {u rest : List PTok} {m : MessageDecl} (h : Spec.Grammar.Message u m) :
    pImport (u ++ rest) = none := by
  cases h with
  | @mk as rs name l ps r es semi annots res params e has hres hn hL hps hr hes hs =>
    cases hp : pImport (as ++ rs ++ name :: l :: ps ++ r :: es ++ [semi] ++ rest) with
    | none => rfl
    | some x =>
      obtain ⟨i, rest'⟩ := x
      exfalso
      obtain ⟨u, e, hu⟩ := pImport_sound _ _ _ hp
      simp only [List.append_assoc, List.cons_append, List.nil_append] at e
      have hu' : ∃ i k s semi, u = [i, k, s, semi] ∧ Word "import" i ∧ Ident k ∧
          s.kind = .string := by
        cases hu with
        | schema h1 h2 h3 | protocol h1 h2 h3 | idl h1 h2 h3 =>
          exact ⟨_, _, _, _, rfl, h1, word_ident h2, h3⟩
      obtain ⟨i, k, s, se, rfl, hi, hk, hs⟩ := hu'
      cases has with
      | cons h _ =>
        cases h with
        | mk ha =>
          simp only [List.cons_append] at e
          injection e with e _
          subst e
          have := ha.symm.trans hi
          simp at this
      | nil =>
        have next : ∀ {k' : PTok} {us : List PTok}, rs = k' :: us →
            rs = [i] ∨ (∃ x us', rs = i :: x :: us' ∧ x = k) := by
          intro k' us he
          subst he
          simp only [List.nil_append, List.cons_append] at e
          injection e with e1 e2
          subst e1
          cases us with
          | nil => exact .inl rfl
          | cons x us =>
            simp only [List.cons_append] at e2
            injection e2 with e2 _
            exact .inr ⟨x, us, rfl, e2⟩
        obtain ⟨k', us, e', _⟩ := result_start hres
        rcases next e' with hrs | ⟨x, us', hrs, hx⟩
        · subst hrs
          simp only [List.nil_append, List.cons_append] at e
          injection e with _ e
          injection e with _ e
          injection e with e _
          subst e
          have := hL.symm.trans hs
          simp at this
        · subst hx
          subst hrs
          have hid : ∀ {w : String} {c : Char}, Word w i → Sign c x → False := by
            intro w c _ hc
            rcases hk with hk | ⟨w', hk⟩ <;> (have := hc.symm.trans hk; simp at this)
          generalize hgen : i :: x :: us' = rs at hres
          cases hres with
          | void => simp at hgen
          | plain hp =>
            cases hp with
            | array h h' | map h h' | union h h' =>
              simp only [List.cons_append] at hgen
              injection hgen with g1 g2
              injection g2 with g2 _
              subst g1; subst g2
              exact hid h h'
            | primitive h hq =>
              rcases primitive_decimal h with ⟨t, w, rfl, h, hs⟩ | ⟨d, l, u', rfl, hd, h'⟩
              · simp only [List.cons_append, List.nil_append] at hgen
                injection hgen with g1 g2
                subst g1
                cases hq with
                | no => simp at g2
                | yes hq =>
                  injection g2 with g2 _
                  subst g2
                  exact hid hi hq
              · simp only [List.cons_append] at hgen
                injection hgen with g1 g2
                injection g2 with g2 _
                subst g1; subst g2
                exact hid hd h'
            | named _ _ hq =>
              injection hgen with g1 g2
              subst g1
              cases hq with
              | no => simp at g2
              | yes hq =>
                injection g2 with g2 _
                subst g2
                exact hid hi hq

/-- A type that begins with the given keyword and is followed by an identifier is a reference. -/
theorem result_keyword {w : String} {k : PTok} {us : List PTok} {res : Option PlainType}
    (hk : Word w k) (hw : w ∈ ["fixed", "enum", "record", "error"])
    (h : Result (k :: us) res) : us = [] ∨ ∃ q us', us = q :: us' ∧ Sign '?' q := by
  generalize hgen : k :: us = rs at h
  have absurdW : ∀ {w' : String}, w' ∉ ["fixed", "enum", "record", "error"] → Word w' k → False := by
    intro w' hw' h
    have := h.symm.trans hk
    simp only [Kind.kw.injEq] at this
    exact hw' (this ▸ hw)
  cases h with
  | void h =>
    injection hgen with _ g2
    exact .inl g2
  | plain hp =>
    cases hp with
    | array h | map h | union h =>
      simp only [List.cons_append] at hgen
      injection hgen with g1 _
      subst g1
      exact absurd h (absurdW (by decide))
    | primitive h hq =>
      rcases primitive_decimal h with ⟨t, w', rfl, h, hs⟩ | ⟨d, l, u', rfl, h, h'⟩
      · simp only [List.cons_append, List.nil_append] at hgen
        injection hgen with g1 g2
        subst g1
        cases hq with
        | no => exact .inl g2
        | yes hq => exact .inr ⟨_, _, g2, hq⟩
      · simp only [List.cons_append] at hgen
        injection hgen with g1 _
        subst g1
        exact absurd h (absurdW (by decide))
    | named _ _ hq =>
      injection hgen with g1 g2
      cases hq with
      | no => exact .inl g2
      | yes hq => exact .inr ⟨_, _, g2, hq⟩

theorem pIdent_sign {c : Char} {t : PTok} {ts : List PTok} (h : Sign c t) :
    pIdent (t :: ts) = none := by
  simp [pIdent, show t.kind = _ from h, Kind.isIdent]

theorem pTok_other {k k' : Kind} {t : PTok} {ts : List PTok} (h : t.kind = k') (hk : k' ≠ k) :
    pTok k (t :: ts) = none := by
  simp [pTok, h, hk]

/-- A message is not a declaration. -/
theorem pNamed_message {n : Nat} {u rest : List PTok} {m : MessageDecl}
    (h : Spec.Grammar.Message u m) (hl : u.length < n) : pNamed n (u ++ rest) = none := by
  cases h with
  | @mk as rs name l ps r es semi annots res params e has hres hn hL hps hr hes hs =>
    simp only [List.length_append, List.length_cons, List.length_nil] at hl
    obtain ⟨k, us, ek, hk⟩ := result_start hres
    subst ek
    have e1 := pAnnots_complete n _ _
      ((k :: us) ++ name :: l :: (ps ++ r :: (es ++ semi :: rest))) has
      (by omega) (notNext_ident hk)
    simp only [List.append_assoc, List.cons_append, List.nil_append] at e1 ⊢
    unfold pNamed
    rw [e1]
    simp only [Option.bind_eq_bind, Option.bind_some]
    by_cases hkw : ∃ w, w ∈ ["fixed", "enum", "record", "error"] ∧ Word w k
    · obtain ⟨w, hw, hwk⟩ := hkw
      rcases result_keyword hwk hw hres with rfl | ⟨q, us', rfl, hq⟩
      · have hint : pTok .int (ps ++ r :: (es ++ semi :: rest)) = none := by
          cases hps with
          | none => exact pTok_other hr (by simp)
          | some hps =>
            obtain ⟨t, u', rfl, ht⟩ := commas_start (fun _ _ h => param_start h) hps
            rw [List.cons_append]
            rcases ht with (ht | ⟨_, ht⟩) | ht <;> exact pTok_other ht (by simp)
        simp [pIdent_cons hn, pTok_cons hL, pTok_other (k := .sym '{') hL, hint]
      · simp [pIdent_sign hq]
    · have no : ∀ w, w ∈ ["fixed", "enum", "record", "error"] → ¬ k.kind = .kw w :=
        fun w hw h => hkw ⟨w, hw, h⟩
      simp [no "fixed" (by decide), no "enum" (by decide), no "record" (by decide),
        no "error" (by decide)]

theorem pBodyItem_complete (n : Nat) : PComplete (pBodyItem n) Item n (notNext '=') := by
  intro u a rest h hl hok
  unfold pBodyItem
  cases h with
  | import_ h => rw [pImport_complete n _ _ rest h hl trivial]
  | named h => rw [pImport_named h, pNamed_complete n _ _ rest h hl hok]
  | message h =>
    rw [pImport_message h, pNamed_message h hl, pMessage_complete n _ _ rest h hl trivial]
    rfl

theorem pFileItem_complete (n : Nat) : PComplete (pFileItem n) SchemaItem n (notNext '=') := by
  intro u a rest h hl hok
  unfold pFileItem
  cases h with
  | import_ h => rw [pImport_complete n _ _ rest h hl trivial]
  | named h => rw [pImport_named h, pNamed_complete n _ _ rest h hl hok]; rfl

theorem item_start {u : List PTok} {i : BodyItem} (h : Item u i) :
    ∃ k u', u = k :: u' ∧ (Ident k ∨ Sign '@' k) := by
  cases h with
  | import_ h =>
    obtain ⟨k, u', e, hk⟩ := import_start h
    exact ⟨k, u', e, .inl (word_ident hk)⟩
  | named h => exact named_start h
  | message h => exact message_start h

theorem fileItem_start {u : List PTok} {i : FileItem} (h : SchemaItem u i) :
    ∃ k u', u = k :: u' ∧ (Ident k ∨ Sign '@' k) := by
  cases h with
  | import_ h =>
    obtain ⟨k, u', e, hk⟩ := import_start h
    exact ⟨k, u', e, .inl (word_ident hk)⟩
  | named h => exact named_start h

/-! ## Files -/

theorem pProtocol_complete {n : Nat} {as ts : List PTok} {k name l r : PTok} {annots : List Annot}
    {body : List BodyItem} (has : Many Property as annots) (hk : Word "protocol" k)
    (hn : Ident name) (hL : Sign '{' l) (hb : Many Item ts body) (hr : Sign '}' r)
    (hl : (as ++ k :: name :: l :: ts ++ [r]).length < n) :
    pProtocol n (as ++ k :: name :: l :: ts ++ [r]) =
      some (⟨firstIndex (as ++ [k]), annots, name.text, body, name.span⟩, []) := by
  simp only [List.length_append, List.length_cons, List.length_nil] at hl
  have e1 := pAnnots_complete n _ _ (k :: name :: l :: (ts ++ [r])) has (by omega)
    (notNext_word hk)
  have e2 := pUntil_complete (pBodyItem_complete n) (fun _ _ hc => notNext_sign hc (by decide))
    (fun u a rest h => by
      obtain ⟨t, u', e, ht⟩ := item_start h
      rw [e]; exact notNext_start ht (by decide))
    (startsNot_of (fun _ _ h => item_start h) (by decide)) hb n r [] (by omega) (by omega) hr
  simp only [List.append_assoc, List.cons_append]
  unfold pProtocol
  simp [e1, firstIndex_mid as k, pIdent_cons hn, pTok_cons hL, e2, pTok_cons hk]

/-- What begins a file without a protocol. -/
theorem schemaFile_protocol {n : Nat} {ns ms ts : List PTok} {name : Option String}
    {main : Option FullType} {body : List FileItem} (h1 : NamespaceOpt ns name)
    (h2 : MainOpt ms main) (h3 : Many SchemaItem ts body) (hl : (ns ++ ms ++ ts).length < n) :
    pProtocol n (ns ++ ms ++ ts) = none := by
  have key : ∀ {as : List PTok} {ps : List Annot} {k : PTok} {us : List PTok} {w : String},
      Many Property as ps → as.length < n → Word w k → w ≠ "protocol" →
      pProtocol n (as ++ k :: us) = none := by
    intro as ps k us w has hl hk hw
    have e := pAnnots_complete n _ _ (k :: us) has hl (notNext_word hk)
    unfold pProtocol
    simp [e, pTok_other hk (k := .kw "protocol") (by simpa using hw)]
  have keyNil : ∀ {k : PTok} {us : List PTok} {w : String}, Word w k → w ≠ "protocol" →
      pProtocol n (k :: us) = none :=
    fun hk hw => key (as := []) .nil (by simp only [List.length_nil]; omega) hk hw
  cases h1 with
  | some hk => exact keyNil hk (by decide)
  | none =>
    cases h2 with
    | some hk => exact keyNil hk (by decide)
    | none =>
      cases h3 with
      | nil =>
        cases n with
        | zero => omega
        | succ n => rfl
      | cons h _ =>
        cases h with
        | import_ h =>
          obtain ⟨k, u', rfl, hk⟩ := import_start h
          exact keyNil hk (by decide)
        | named h =>
          cases h with
          | fixed has hk | enum has hk | record has hk | error has hk =>
            simp only [List.nil_append, List.append_assoc, List.cons_append, List.length_append]
              at hl ⊢
            exact key has (by omega) hk (by decide)

theorem pFile_complete {n : Nat} {ts : List PTok} {f : FileAst} (h : File ts f)
    (hl : ts.length < n) : pFile n ts = some f := by
  unfold pFile
  cases h with
  | protocol has hk hn hL hb hr => rw [pProtocol_complete has hk hn hL hb hr hl]
  | @schema ns ms ts name main body h1 h2 h3 =>
    rw [schemaFile_protocol h1 h2 h3 hl]
    simp only [List.length_append] at hl
    have nextTs : ∀ {w : String}, w ≠ "import" → w ∉ ["fixed", "enum", "record", "error"] →
        nextIs (.kw w) ts = false := by
      intro w hw hw'
      have hne : ∀ {w' : String} {k : PTok} {us : List PTok}, Word w' k →
          w' ∈ "import" :: ["fixed", "enum", "record", "error"] → nextIs (.kw w) (k :: us) = false := by
        intro w' k us hk hm
        refine nextIs_other hk ?_
        rintro ⟨rfl⟩
        rcases List.mem_cons.mp hm with h | h
        · exact hw h
        · exact hw' h
      cases h3 with
      | nil => rfl
      | cons h _ =>
        cases h with
        | import_ h =>
          obtain ⟨k, u', rfl, hk⟩ := import_start h
          exact hne hk (by decide)
        | named h =>
          cases h with
          | fixed has hk | enum has hk | record has hk | error has hk =>
            simp only [List.append_assoc, List.cons_append]
            cases has with
            | nil => exact hne hk (by decide)
            | cons h _ =>
              cases h with
              | mk ha => exact nextIs_other ha (by simp)
    have e3 := pAll_complete (pFileItem_complete n) rfl
      (fun u a rest h => by
        obtain ⟨t, u', e, ht⟩ := fileItem_start h
        rw [e]; exact notNext_start ht (by decide))
      (fun u a h => by
        obtain ⟨t, u', e, ht⟩ := fileItem_start h
        rw [e]; simp) h3 n (by omega) (by omega)
    have e2 : pMain n (ms ++ ts) = some (main, ts) := by
      unfold pMain
      cases h2 with
      | none => simp [nextTs (w := "schema") (by decide) (by decide)]
      | @some k us semi f hk hf hs =>
        simp only [List.length_append, List.length_cons, List.length_nil] at hl
        have e := (pType_complete n).1 _ _ (semi :: ts) hf (by omega)
          (afterType_sign hs (by decide))
        simp only [List.append_assoc, List.cons_append, List.nil_append]
        simp [nextIs_cons hk, e, pTok_cons hs]
    have e1 : pNamespace (ns ++ (ms ++ ts)) = some (name, ms ++ ts) := by
      unfold pNamespace
      cases h1 with
      | none =>
        have : nextIs (.kw "namespace") (ms ++ ts) = false := by
          cases h2 with
          | none => exact nextTs (by decide) (by decide)
          | some hk => exact nextIs_other hk (by simp)
        simp [this]
      | some hk hn hs => simp [nextIs_cons hk, pIdent_cons hn, pTok_cons hs]
    rw [List.append_assoc]
    simp [e1, e2, e3]

end Avdl
