import Verif.Spec.Where
import Verif.Lemmas.SourceSpans
/-!
# Where an error of a file points
-/

namespace Avdl
open Spec Spec.Grammar

/-! ## Nodes -/

/-- Tokens with positions. -/
def Positioned (ts : List PTok) : Prop := ∀ t ∈ ts, ∃ s, t.span = some s ∧ 0 < s.length

theorem Positioned.of_infix {ts us : List PTok} (h : Positioned us) (hi : ts <:+: us) : Positioned ts :=
  fun t ht => h t (hi.subset ht)

theorem nodeSpan_single {t : PTok} (h : Positioned [t]) : nodeSpan [t] = t.span := by
  obtain ⟨s, hs, hp⟩ := h t (by simp)
  simp only [nodeSpan, List.head?_cons, List.getLast?_singleton, Option.bind_some, hs]
  have h1 : contextSpan ⟨s.offset, s.offset + s.length - 1⟩ ⟨s.offset, s.offset + s.length - 1⟩ =
      (s.offset, s.length) := by
    unfold contextSpan spanFromOffsets
    simp only
    rw [if_pos (by split <;> omega)]
    refine Prod.ext (by simp) ?_
    simp only [ite_self]
    omega
  rw [h1]

section
variable [FloatTables]

/-- The error is about a node among the tokens, and is at its position. -/
def Seen (ts : List PTok) (m : Fault) : Prop :=
  ∃ node, node <:+: ts ∧ ErrorAbout m.err node ∧ m.span = nodeSpan node

omit [FloatTables] in
theorem Seen.mono {ts us : List PTok} {m : Fault} (h : Seen ts m) (hi : ts <:+: us) : Seen us m := by
  obtain ⟨n, h1, h2⟩ := h
  exact ⟨n, h1.trans hi, h2⟩

omit [FloatTables] in
theorem Seen.here {ts : List PTok} {e : ReadErr} (h : ErrorAbout e ts) : Seen ts ⟨e, nodeSpan ts⟩ :=
  ⟨ts, List.infix_rfl, h, rfl⟩

omit [FloatTables] in
theorem Seen.token {t : PTok} {ts : List PTok} {e : ReadErr} (ht : t ∈ ts) (hg : Positioned ts)
    (h : ErrorAbout e [t]) : Seen ts ⟨e, t.span⟩ := by
  obtain ⟨a, b, rfl⟩ := List.append_of_mem ht
  have hi : [t] <:+: a ++ t :: b := ⟨a, b, by simp⟩
  exact ⟨[t], hi, h, (nodeSpan_single (hg.of_infix hi)).symm⟩

omit [FloatTables] in
/-- In the tokens of several things those of one. -/
theorem many_infix {α : Type} {R : Rel α} {ts : List PTok} {as : List α} (h : Many R ts as) {a : α}
    (ha : a ∈ as) : ∃ us, us <:+: ts ∧ R us a := by
  induction h with
  | nil => cases ha
  | @cons ts ts' a' as' h1 h2 ih =>
    rcases List.mem_cons.mp ha with rfl | ha
    · exact ⟨ts, (List.prefix_append ..).isInfix, h1⟩
    · obtain ⟨us, h3, h4⟩ := ih ha
      exact ⟨us, h3.trans (List.suffix_append ..).isInfix, h4⟩

omit [FloatTables] in
theorem commas_infix {α : Type} {R : Rel α} {ts : List PTok} {as : List α} (h : Commas R ts as)
    {a : α} (ha : a ∈ as) : ∃ us, us <:+: ts ∧ R us a := by
  induction h with
  | one h =>
    simp only [List.mem_singleton] at ha
    subst ha
    exact ⟨_, List.infix_rfl, h⟩
  | @more ts comma ts' a' as' h1 _ h2 ih =>
    rcases List.mem_cons.mp ha with rfl | ha
    · exact ⟨ts, (List.prefix_append ..).isInfix, h1⟩
    · obtain ⟨us, h3, h4⟩ := ih ha
      exact ⟨us, h3.trans ((List.suffix_cons ..).trans (List.suffix_append ..)).isInfix, h4⟩

omit [FloatTables] in
theorem commasOpt_infix {α : Type} {R : Rel α} {ts : List PTok} {as : List α}
    (h : CommasOpt R ts as) {a : α} (ha : a ∈ as) : ∃ us, us <:+: ts ∧ R us a := by
  cases h with
  | none => cases ha
  | some h => exact commas_infix h ha

omit [FloatTables] in
theorem fullList_infix {ts : List PTok} {fs : List FullType} (h : FullList ts fs) {f : FullType}
    (hf : f ∈ fs) : ∃ us, us <:+: ts ∧ Full us f := by
  induction fs generalizing ts with
  | nil => cases hf
  | cons f' fs ih =>
    cases h with
    | one h =>
      simp only [List.mem_singleton] at hf
      subst hf
      exact ⟨_, List.infix_rfl, h⟩
    | @more ts comma ts' _ _ h1 _ h2 =>
      rcases List.mem_cons.mp hf with rfl | hf
      · exact ⟨ts, (List.prefix_append ..).isInfix, h1⟩
      · obtain ⟨us, h3, h4⟩ := ih h2 hf
        exact ⟨us, h3.trans ((List.suffix_cons ..).trans (List.suffix_append ..)).isInfix, h4⟩

omit [FloatTables] in
theorem firstBad_mem {α : Type} {Ok : α → Prop} {Bad : α → Fault → Prop} {l : List α} {e : Fault}
    (h : FirstBad Ok Bad l e) : ∃ a ∈ l, Bad a e := by
  induction h with
  | here h => exact ⟨_, List.mem_cons_self .., h⟩
  | later _ _ ih =>
    obtain ⟨a, ha, h⟩ := ih
    exact ⟨a, List.mem_cons_of_mem _ ha, h⟩

omit [FloatTables] in
theorem inner_infix {a : List PTok} {ts b : List PTok} : ts <:+: a ++ ts ++ b := ⟨a, b, rfl⟩

/-! ## Values and annotations -/

mutual
theorem value_seen : ∀ (v : JVal) {ts : List PTok} {e : Fault}, JsonValue ts v → JsonMistake v e →
    Positioned ts → Seen ts e
  | .int text sp, _, _, h, hm, hg => by
      cases hm
      cases h with | literal h => cases h with | int h => exact .token (by simp) hg (.badInteger h)
  | .float text sp, _, _, h, hm, hg => by
      cases hm
      cases h with | literal h => cases h with | float h => exact .token (by simp) hg (.badFloat h)
  | .arr vs, _, _, h, hm, hg => by
      cases hm with
      | item hm =>
        obtain ⟨v, hv, hb⟩ := firstBad_mem hm
        cases h with
        | @array l ts r _ _ h _ =>
          obtain ⟨us, h1, h2⟩ := commasOpt_infix h hv
          have hi : us <:+: l :: ts ++ [r] := h1.trans (inner_infix (a := [l]))
          exact (values_seen vs v hv h2 hb (hg.of_infix hi)).mono hi
        | literal h => cases h
  | .obj m, _, _, h, hm, hg => by
      cases hm with
      | entry hm =>
        obtain ⟨v, hv, hb⟩ := firstBad_mem hm
        cases h with
        | @object l ts r _ _ h _ =>
          obtain ⟨us, h1, h2⟩ := commasOpt_infix h hv
          cases h2 with
          | @mk k colon ts' v _ _ h2 =>
            have hi : ts' <:+: l :: ts ++ [r] :=
              ((List.suffix_append [k, colon] ts').isInfix.trans h1).trans (inner_infix (a := [l]))
            exact (entries_seen m _ hv h2 hb (hg.of_infix hi)).mono hi
        | literal h => cases h
  | .null, _, _, _, hm, _ => by cases hm
  | .true, _, _, _, hm, _ => by cases hm
  | .false, _, _, _, hm, _ => by cases hm
  | .str _, _, _, _, hm, _ => by cases hm
theorem values_seen : ∀ (vs : List JVal) (v : JVal), v ∈ vs → ∀ {ts : List PTok} {e : Fault},
    JsonValue ts v → JsonMistake v e → Positioned ts → Seen ts e
  | [], _, h, _, _, _, _, _ => by cases h
  | v' :: vs, v, hv, _, _, h, hm, hg => by
      rcases List.mem_cons.mp hv with he | hv
      · exact value_seen v' (he ▸ h) (he ▸ hm) hg
      · exact values_seen vs v hv h hm hg
theorem entries_seen : ∀ (m : List (String × JVal)) (kv : String × JVal), kv ∈ m →
    ∀ {ts : List PTok} {e : Fault}, JsonValue ts kv.2 → JsonMistake kv.2 e → Positioned ts → Seen ts e
  | [], _, h, _, _, _, _, _ => by cases h
  | (k, v) :: m, kv, hv, _, _, h, hm, hg => by
      rcases List.mem_cons.mp hv with he | hv
      · rw [he] at h hm
        exact value_seen v h hm hg
      · exact entries_seen m kv hv h hm hg
end

variable [CaseTables]

theorem property_seen {special reserved : List String} {ts : List PTok} {a : Annot} {e : Fault}
    (h : Property ts a) (hm : AnnotMistake special reserved a e) (hg : Positioned ts) : Seen ts e := by
  have hs : a.span = nodeSpan ts := by cases h; rfl
  cases hm with
  | value hm =>
    cases h with
    | @mk a name l ts r v _ _ _ h _ =>
      have hi : ts <:+: a :: name :: l :: ts ++ [r] := inner_infix (a := [a, name, l])
      exact (value_seen v h hm (hg.of_infix hi)).mono hi
  | reserved => rw [hs]; exact .here (.reservedProperty h)
  | namespace_ _ _ hn => rw [hs]; exact .here (.namespaceNotString h hn)
  | aliases _ _ hn => rw [hs]; exact .here (.aliasesNotStrings h hn)
  | order _ _ hn => rw [hs]; exact .here (.orderInvalid h hn)

theorem annots_seen {special reserved : List String} {ts : List PTok} {as : List Annot} {e : Fault}
    (h : Many Property ts as) (hm : AnnotsMistake special reserved as e) (hg : Positioned ts) :
    Seen ts e := by
  obtain ⟨a, ha, hb⟩ := firstBad_mem hm
  obtain ⟨us, h1, h2⟩ := many_infix h ha
  exact (property_seen h2 hb (hg.of_infix h1)).mono h1

/-! ## Types -/

omit [FloatTables] [CaseTables] in
theorem full_span {ts : List PTok} {f : FullType} (h : Full ts f) : f.span = nodeSpan ts := by
  cases h; rfl

mutual
theorem plain_seen {ns : Option String} : ∀ {ts : List PTok} {p : PlainType} {e : Fault},
    Plain ts p → PlainMistake ns p e → Positioned ts → Seen ts e
  | _, _, _, @Plain.array a l ts r _ _ _ h _, hm, hg => by
      have hi : ts <:+: a :: l :: ts ++ [r] := inner_infix (a := [a, l])
      cases hm with | array hm => exact (full_seen h hm (hg.of_infix hi)).mono hi
  | _, _, _, @Plain.map a l ts r _ _ _ h _, hm, hg => by
      have hi : ts <:+: a :: l :: ts ++ [r] := inner_infix (a := [a, l])
      cases hm with | map hm => exact (full_seen h hm (hg.of_infix hi)).mono hi
  | _, _, _, @Plain.union a l ts r fs _ _ h _, hm, hg => by
      have hi : ts <:+: a :: l :: ts ++ [r] := inner_infix (a := [a, l])
      generalize hp : PlainType.union fs = p at hm
      cases hm with
      | member hm => cases hp; exact (fullList_seen h hm (hg.of_infix hi)).mono hi
      | @nested b t c _ _ hu =>
        cases hp
        obtain ⟨us, h1, h2⟩ := fullList_infix h (f := t) (by simp)
        rw [full_span h2]
        exact (Seen.here (.nestedUnion h2 hu)).mono (h1.trans hi)
      | @duplicate b t u c x _ _ hx _ _ =>
        cases hp
        obtain ⟨us, h1, h2⟩ := fullList_infix h (f := t) (by simp)
        rw [full_span h2]
        exact (Seen.here (.duplicateInUnion h2 hx)).mono (h1.trans hi)
      | _ => cases hp
  | _, _, _, @Plain.primitive ts q p b h1 h2, hm, hg => by
      generalize hx : PlainType.prim p b (nodeSpan (ts ++ q)) = x at hm
      cases hm with
      | precision hn =>
        cases hx
        cases h1 with
        | simple _ h => cases h
        | decimal _ _ hk _ => exact .token (by simp) hg (.badPrecision hk hn)
        | decimalScale _ _ hk _ _ _ => exact .token (by simp) hg (.badPrecision hk hn)
      | scale _ _ hn =>
        cases hx
        cases h1 with
        | simple _ h => cases h
        | decimalScale _ _ _ _ hk _ => exact .token (by simp) hg (.badScale hk hn)
      | null =>
        cases hx
        cases h2 with
        | yes hq =>
          cases h1 with
          | simple hw h =>
            cases h
            exact .here (.nullableNull hw hq)
      | _ => cases hx
  | _, _, _, .named _ _ _, hm, _ => by cases hm
theorem full_seen {ns : Option String} : ∀ {ts : List PTok} {f : FullType} {e : Fault},
    Full ts f → TypeMistake ns f e → Positioned ts → Seen ts e
  | _, _, _, @Full.mk as ts ps t h1 h2, hm, hg => by
      generalize hx : FullType.mk ps t (nodeSpan (as ++ ts)) = x at hm
      cases hm with
      | annots hm =>
        cases hx
        have hi : as <:+: as ++ ts := (List.prefix_append ..).isInfix
        exact (annots_seen h1 hm (hg.of_infix hi)).mono hi
      | plain _ hm =>
        cases hx
        have hi : ts <:+: as ++ ts := (List.suffix_append ..).isInfix
        exact (plain_seen h2 hm (hg.of_infix hi)).mono hi
      | reference _ hne =>
        cases hx
        exact .here (.annotatedReference (.mk h1 h2) hne)
theorem fullList_seen {ns : Option String} : ∀ {ts : List PTok} {fs : List FullType} {e : Fault},
    FullList ts fs → TypesMistake ns fs e → Positioned ts → Seen ts e
  | _, _, _, .one h, hm, hg => by
      cases hm with
      | here hm => exact full_seen h hm hg
      | later _ hm => cases hm
  | _, _, _, @FullList.more ts comma ts' _ _ h1 _ h2, hm, hg => by
      cases hm with
      | here hm =>
        have hi : ts <:+: ts ++ comma :: ts' := (List.prefix_append ..).isInfix
        exact (full_seen h1 hm (hg.of_infix hi)).mono hi
      | later _ hm =>
        have hi : ts' <:+: ts ++ comma :: ts' :=
          ((List.suffix_cons ..).trans (List.suffix_append ..)).isInfix
        exact (fullList_seen h2 hm (hg.of_infix hi)).mono hi
end

/-! ## Declarations -/

theorem variable_seen {ns : Option String} {type : FullType} {ts : List PTok} {v : VarDecl}
    {e : Fault} (h : Variable ts v) (hm : VariableMistake ns type v e) (hg : Positioned ts) :
    Seen ts e := by
  cases hm with
  | annots hm =>
    cases h with
    | @plain as name _ h1 _ =>
      have hi := (List.prefix_append as [name]).isInfix
      exact (annots_seen h1 hm (hg.of_infix hi)).mono hi
    | @default as name eq ts _ _ h1 _ _ _ =>
      have hi := (List.prefix_append as (name :: eq :: ts)).isInfix
      exact (annots_seen h1 hm (hg.of_infix hi)).mono hi
  | value _ hd hm =>
    cases h with
    | plain _ _ => cases hd
    | @default as name eq ts _ _ _ _ _ h2 =>
      cases hd
      have hi : ts <:+: as ++ name :: eq :: ts := ⟨as ++ [name, eq], [], by simp⟩
      exact (value_seen _ h2 hm (hg.of_infix hi)).mono hi
  | default _ hd _ _ _ _ =>
    cases h with
    | plain _ _ => cases hd
    | @default as name eq ts _ _ _ _ _ h2 =>
      have hi : ts <:+: as ++ name :: eq :: ts := ⟨as ++ [name, eq], [], by simp⟩
      exact (Seen.here (.invalidDefault h2)).mono hi

omit [FloatTables] [CaseTables] in
/-- The name of a variable is one of its tokens. -/
theorem variable_name {ts : List PTok} {v : VarDecl} (h : Variable ts v) :
    ∃ t ∈ ts, Ident t ∧ v.ident = t.text ∧ v.identSpan = t.span := by
  cases h with
  | plain _ h => exact ⟨_, by simp, h, rfl, rfl⟩
  | default _ h _ _ => exact ⟨_, by simp, h, rfl, rfl⟩

theorem field_seen {ns : Option String} {record : String} {before : List String} {ts : List PTok}
    {d : FieldDecl} {e : Fault} (h : FieldDeclaration ts d)
    (hm : FieldMistake ns record before d e) (hg : Positioned ts) : Seen ts e := by
  cases h with
  | @mk ts vs semi f ds h1 h2 _ =>
    have hi1 : ts <:+: ts ++ vs ++ [semi] := ⟨[], vs ++ [semi], by simp⟩
    have hi2 : vs <:+: ts ++ vs ++ [semi] := inner_infix
    cases hm with
    | type hm => exact (full_seen h1 hm (hg.of_infix hi1)).mono hi1
    | var _ hm =>
      obtain ⟨v, hv, hb⟩ := firstBad_mem hm
      obtain ⟨us, h3, h4⟩ := commas_infix h2 hv
      exact (variable_seen h4 hb (hg.of_infix (h3.trans hi2))).mono (h3.trans hi2)
    | @repeated l v l' _ _ hv _ _ =>
      obtain ⟨us, h3, h4⟩ := commas_infix h2 (a := v) (by simp only at hv; rw [hv]; simp)
      obtain ⟨t, ht, h5, h6, h7⟩ := variable_name h4
      rw [variableName, h6, h7]
      exact (Seen.token ht (hg.of_infix (h3.trans hi2)) (.duplicateField h5)).mono (h3.trans hi2)

theorem fields_seen {ns : Option String} {record : String} {ts : List PTok} {before : List String}
    {ds : List FieldDecl} {e : Fault} (h : Many FieldDeclaration ts ds)
    (hm : FieldsMistake ns record before ds e) (hg : Positioned ts) : Seen ts e := by
  induction h generalizing before with
  | nil => cases hm
  | @cons ts ts' _ _ h1 h2 ih =>
    have hi1 : ts <:+: ts ++ ts' := (List.prefix_append ..).isInfix
    have hi2 : ts' <:+: ts ++ ts' := (List.suffix_append ..).isInfix
    cases hm with
    | here hm => exact (field_seen h1 hm (hg.of_infix hi1)).mono hi1
    | later _ _ _ hm => exact (ih hm (hg.of_infix hi2)).mono hi2

/-- Records and errors are alike. -/
theorem record_seen {ns : Option String} {as ts us : List PTok} {name : PTok} {d : RecordDecl}
    {e : Fault} (h1 : Many Property as d.annots) (h2 : Ident name)
    (h3 : Many FieldDeclaration ts d.fields) (hi : d.ident = name.text)
    (hs : d.identSpan = name.span) (ha : as <:+: us) (hn : name ∈ us) (ht : ts <:+: us)
    (hm : DeclMistake ns (.record d) e) (hg : Positioned us) : Seen us e := by
  cases hm with
  | recordAnnots hm => exact (annots_seen h1 hm (hg.of_infix ha)).mono ha
  | recordName _ hd _ =>
    rw [hi] at hd
    rw [hs]
    exact .token hn hg (.illegalName h2 hd)
  | field _ _ _ hm => exact (fields_seen h3 hm (hg.of_infix ht)).mono ht

theorem named_seen {ns : Option String} {ts : List PTok} {d : NamedDecl} {sp : Option Span}
    {e : Fault} (h : Named ts (d, sp)) (hm : DeclMistake ns d e) (hg : Positioned ts) : Seen ts e := by
  cases h with
  | @fixed as k name l size r semi ps h1 _ h2 _ hk _ _ =>
    generalize hx : NamedDecl.fixed _ = x at hm
    cases hm with
    | fixedAnnots hm =>
      cases hx
      have hi := (List.prefix_append as [k, name, l, size, r, semi]).isInfix
      exact (annots_seen h1 hm (hg.of_infix hi)).mono hi
    | fixedName _ hd _ => cases hx; exact .token (by simp) hg (.illegalName h2 hd)
    | size _ _ _ hn => cases hx; exact .token (by simp) hg (.badFixedSize hk hn)
    | _ => cases hx
  | @enum as k name l ts r d ps syms dflt h1 _ h2 _ h3 _ h4 =>
    have hi2 : ts <:+: as ++ k :: name :: l :: ts ++ r :: d :=
      ⟨as ++ [k, name, l], r :: d, by simp⟩
    generalize hx : NamedDecl.enum _ = x at hm
    cases hm with
    | enumAnnots hm =>
      cases hx
      have hi : as <:+: as ++ k :: name :: l :: ts ++ r :: d :=
        ⟨[], k :: name :: l :: ts ++ r :: d, by simp⟩
      exact (annots_seen h1 hm (hg.of_infix hi)).mono hi
    | enumName _ hd _ => cases hx; exact .token (by simp) hg (.illegalName h2 hd)
    | @symbol _ _ _ ss s ss' _ _ _ hs _ _ =>
      cases hx
      simp only at hs
      obtain ⟨us, h5, h6⟩ := commasOpt_infix h3 (a := s) (by rw [hs]; simp)
      have : s.2 = nodeSpan us := by cases h6; rfl
      rw [this]
      exact (Seen.here (.duplicateSymbol h6)).mono (h5.trans hi2)
    | enumDefault _ _ _ _ hd _ =>
      cases hx
      simp only at hd
      subst hd
      cases h4 with
      | some _ hn _ => exact .token (by simp) hg (.defaultNotASymbol hn)
    | _ => cases hx
  | @record as k name l ts r ps fs h1 _ h2 _ h3 _ =>
    exact record_seen h1 h2 h3 rfl rfl ⟨[], k :: name :: l :: ts ++ [r], by simp⟩ (by simp)
      ⟨as ++ [k, name, l], [r], by simp⟩ hm hg
  | @error as k name l ts r ps fs h1 _ h2 _ h3 _ =>
    exact record_seen h1 h2 h3 rfl rfl ⟨[], k :: name :: l :: ts ++ [r], by simp⟩ (by simp)
      ⟨as ++ [k, name, l], [r], by simp⟩ hm hg

/-! ## Messages -/

theorem params_seen {ns : Option String} {message : String} {ts : List PTok} {ps : List Param}
    (h : Commas Parameter ts ps) : ∀ {before : List String} {e : Fault},
    ParamsMistake ns message before ps e → Positioned ts → Seen ts e := by
  have one : ∀ {ts p} {e : Fault}, Parameter ts p → (TypeMistake ns p.type e ∨
      VariableMistake ns p.type p.var e ∨
      e = ⟨.duplicateParameter (variableName p.var) message, p.span⟩) → Positioned ts → Seen ts e := by
    intro ts p e h hm hg
    have hs : p.span = nodeSpan ts := by cases h; rfl
    rcases hm with hm | hm | rfl
    · cases h with
      | @mk ts vs _ _ h1 h2 =>
        have hi : ts <:+: ts ++ vs := (List.prefix_append ..).isInfix
        exact (full_seen h1 hm (hg.of_infix hi)).mono hi
    · cases h with
      | @mk ts vs _ _ h1 h2 =>
        have hi : vs <:+: ts ++ vs := (List.suffix_append ..).isInfix
        exact (variable_seen h2 hm (hg.of_infix hi)).mono hi
    · rw [hs]
      exact .here (.duplicateParameter h)
  induction h with
  | one h =>
    intro before e hm hg
    cases hm with
    | type hm => exact one h (.inl hm) hg
    | var _ hm => exact one h (.inr (.inl hm)) hg
    | repeated => exact one h (.inr (.inr rfl)) hg
    | later _ _ _ hm => cases hm
  | @more ts comma ts' _ _ h1 _ h2 ih =>
    intro before e hm hg
    have hi : ts <:+: ts ++ comma :: ts' := (List.prefix_append ..).isInfix
    have hi' : ts' <:+: ts ++ comma :: ts' :=
      ((List.suffix_cons ..).trans (List.suffix_append ..)).isInfix
    cases hm with
    | type hm => exact (one h1 (.inl hm) (hg.of_infix hi)).mono hi
    | var _ hm => exact (one h1 (.inr (.inl hm)) (hg.of_infix hi)).mono hi
    | repeated => exact (one h1 (.inr (.inr rfl)) (hg.of_infix hi)).mono hi
    | later _ _ _ hm => exact (ih hm (hg.of_infix hi')).mono hi'

theorem message_seen {ns : Option String} {ts : List PTok} {m : MessageDecl} {e : Fault}
    (h : Grammar.Message ts m) (hm : MessageMistake ns m e) (hg : Positioned ts) : Seen ts e := by
  have hs : m.span = nodeSpan ts := by cases h; rfl
  cases hm with
  | annots hm =>
    cases h with
    | @mk as rs name l ps r es semi _ _ _ _ h1 _ _ _ _ _ _ _ =>
      have hi : as <:+: as ++ rs ++ name :: l :: ps ++ r :: es ++ [semi] :=
        ⟨[], rs ++ name :: l :: ps ++ r :: es ++ [semi], by simp⟩
      exact (annots_seen h1 hm (hg.of_infix hi)).mono hi
  | result _ hr hm =>
    cases h with
    | @mk as rs name l ps r es semi _ _ _ _ _ h2 _ _ _ _ _ _ =>
      have hi : rs <:+: as ++ rs ++ name :: l :: ps ++ r :: es ++ [semi] :=
        ⟨as, name :: l :: ps ++ r :: es ++ [semi], by simp⟩
      simp only at hr
      subst hr
      cases h2 with
      | plain h2 _ => exact (plain_seen h2 hm (hg.of_infix hi)).mono hi
  | reference _ hne hr => rw [hs]; exact .here (.annotatedResult h hne hr)
  | param _ _ _ hm =>
    cases h with
    | @mk as rs name l ps r es semi _ _ _ _ _ _ _ _ h3 _ _ _ =>
      have hi : ps <:+: as ++ rs ++ name :: l :: ps ++ r :: es ++ [semi] :=
        ⟨as ++ rs ++ [name, l], r :: es ++ [semi], by simp⟩
      cases h3 with
      | none => cases hm
      | some h3 => exact (params_seen h3 hm (hg.of_infix hi)).mono hi
  | oneway _ _ _ _ _ ho _ _ => rw [hs]; exact .here (.onewayNotVoid h ho)

/-! ## Files -/

theorem file_seen {ts : List PTok} {tree : FileAst} {e : Fault} (h : File ts tree)
    (hm : FileMistake tree e) (hg : Positioned ts) : Seen ts e := by
  cases h with
  | @protocol as k name l ts r _ _ h1 _ h2 _ h3 _ =>
    have hi1 : as <:+: as ++ k :: name :: l :: ts ++ [r] :=
      ⟨[], k :: name :: l :: ts ++ [r], by simp⟩
    have hi2 : ts <:+: as ++ k :: name :: l :: ts ++ [r] := ⟨as ++ [k, name, l], [r], by simp⟩
    generalize hx : FileAst.protocol _ = x at hm
    cases hm with
    | annots hm => cases hx; exact (annots_seen h1 hm (hg.of_infix hi1)).mono hi1
    | name _ hd _ => cases hx; exact .token (by simp) hg (.illegalName h2 hd)
    | body _ _ _ hm =>
      cases hx
      obtain ⟨b, hb, hm⟩ := firstBad_mem hm
      obtain ⟨us, h4, h5⟩ := many_infix h3 hb
      have hi := h4.trans hi2
      cases hm with
      | named hm => cases h5 with | named h5 => exact (named_seen h5 hm (hg.of_infix hi)).mono hi
      | message hm =>
        cases h5 with | message h5 => exact (message_seen h5 hm (hg.of_infix hi)).mono hi
    | _ => cases hx
  | @schema ns ms ts n main body _ h2 h3 =>
    have hi1 : ms <:+: ns ++ ms ++ ts := inner_infix
    have hi2 : ts <:+: ns ++ ms ++ ts := (List.suffix_append ..).isInfix
    generalize hx : FileAst.schema n main body = x at hm
    cases hm with
    | item hm =>
      cases hx
      obtain ⟨b, hb, hm⟩ := firstBad_mem hm
      obtain ⟨us, h4, h5⟩ := many_infix h3 hb
      have hi := h4.trans hi2
      cases hm with
      | named hm => cases h5 with | named h5 => exact (named_seen h5 hm (hg.of_infix hi)).mono hi
    | main _ hm =>
      cases hx
      cases h2 with
      | @some k us semi _ _ h2 _ =>
        have hi : us <:+: ns ++ (k :: us ++ [semi]) ++ ts :=
          (inner_infix (a := [k]) (b := [semi])).trans hi1
        exact (full_seen h2 hm (hg.of_infix hi)).mono hi
    | _ => cases hx

/-! ## Warnings -/

variable [CharTables]

/-- What is said is about a node among the tokens, and is at its position. -/
inductive NoticeSeen (ts : List PTok) : Notice → Prop
  | alias {node a l s} : node <:+: ts → Property node a → identifierText a.name = "aliases" →
      HasValue a (.arr l) → .str s ∈ l → ¬ StandardAlias s → NoticeSeen ts (.alias s (nodeSpan node))
  | dropped {node as us sp} : node <:+: ts → Full node (.mk as (.union us) sp) →
      NoticeSeen ts (.dropped (as.map fun a => identifierText a.name) (nodeSpan node))

omit [CaseTables] in
theorem NoticeSeen.mono {ts us : List PTok} {n : Notice} (h : NoticeSeen ts n) (hi : ts <:+: us) :
    NoticeSeen us n := by
  cases h with
  | alias h1 h2 h3 h4 h5 h6 => exact .alias (h1.trans hi) h2 h3 h4 h5 h6
  | dropped h1 h2 => exact .dropped (h1.trans hi) h2

omit [FloatTables] [CaseTables] in
theorem oddAliases_mem {span : Option Span} {n : Notice} : ∀ {js : List Json},
    n ∈ oddAliases span js → ∃ s, .str s ∈ js ∧ ¬ StandardAlias s ∧ n = .alias s span := by
  intro js
  induction js with
  | nil => intro h; cases h
  | cons j js ih =>
    intro h
    have later : n ∈ oddAliases span js →
        ∃ s, .str s ∈ j :: js ∧ ¬ StandardAlias s ∧ n = .alias s span := by
      intro h
      obtain ⟨s, h1, h2⟩ := ih h
      exact ⟨s, List.mem_cons_of_mem _ h1, h2⟩
    unfold oddAliases at h
    split at h
    · cases h
    · rename_i s js' he
      cases he
      split at h
      · exact later h
      · rename_i hs
        rcases List.mem_cons.mp h with rfl | h
        · exact ⟨s, List.mem_cons_self .., hs, rfl⟩
        · exact later h
    · rename_i he
      cases he
      exact later h

omit [CaseTables] in
theorem aliasNotices_seen {ts us : List PTok} {as : List Annot} (h : Many Property ts as)
    (hi : ts <:+: us) {n : Notice} (hn : n ∈ aliasNotices as) : NoticeSeen us n := by
  obtain ⟨a, ha, hn⟩ := List.mem_flatMap.mp hn
  obtain ⟨node, h1, h2⟩ := many_infix h ha
  split at hn
  · rename_i hname
    split at hn
    · rename_i l hv
      obtain ⟨s, h3, h4, rfl⟩ := oddAliases_mem hn
      have hs : a.span = nodeSpan node := by cases h2; rfl
      rw [hs]
      exact .alias (h1.trans hi) h2 hname hv h3 h4
    · cases hn
  · cases hn

mutual
theorem plainNotices_seen : ∀ {ts : List PTok} {p : PlainType}, Plain ts p →
    ∀ n ∈ plainNotices p, NoticeSeen ts n
  | _, _, @Plain.array a l ts r _ _ _ h _, n, hn => by
      simp only [plainNotices] at hn
      exact (fullNotices_seen h n hn).mono (inner_infix (a := [a, l]))
  | _, _, @Plain.map a l ts r _ _ _ h _, n, hn => by
      simp only [plainNotices] at hn
      exact (fullNotices_seen h n hn).mono (inner_infix (a := [a, l]))
  | _, _, @Plain.union a l ts r fs _ _ h _, n, hn => by
      simp only [plainNotices] at hn
      exact (listNotices_seen h n hn).mono (inner_infix (a := [a, l]))
  | _, _, .primitive _ _, _, hn => by simp [plainNotices] at hn
  | _, _, .named _ _ _, _, hn => by simp [plainNotices] at hn
theorem fullNotices_seen : ∀ {ts : List PTok} {f : FullType}, Full ts f →
    ∀ n ∈ typeNotices f, NoticeSeen ts n
  | _, _, @Full.mk as ts ps t h1 h2, n, hn => by
      simp only [typeNotices] at hn
      rcases List.mem_append.mp hn with hn | hn
      · exact (plainNotices_seen h2 n hn).mono (List.suffix_append ..).isInfix
      · unfold droppedNotices at hn
        split at hn
        · split at hn
          · cases hn
          · simp only [List.mem_singleton] at hn
            subst hn
            exact .dropped List.infix_rfl (.mk h1 h2)
        · cases hn
theorem listNotices_seen : ∀ {ts : List PTok} {fs : List FullType}, FullList ts fs →
    ∀ n ∈ typesNotices fs, NoticeSeen ts n
  | _, _, .one h, n, hn => by
      simp only [typesNotices, List.append_nil] at hn
      exact fullNotices_seen h n hn
  | _, _, @FullList.more ts comma ts' _ _ h1 _ h2, n, hn => by
      simp only [typesNotices] at hn
      rcases List.mem_append.mp hn with hn | hn
      · exact (fullNotices_seen h1 n hn).mono (List.prefix_append ..).isInfix
      · exact (listNotices_seen h2 n hn).mono
          ((List.suffix_cons ..).trans (List.suffix_append ..)).isInfix
end

omit [CaseTables] in
theorem variableNotices_seen {ts : List PTok} {v : VarDecl} (h : Variable ts v) :
    ∀ n ∈ aliasNotices v.annots, NoticeSeen ts n := by
  intro n hn
  cases h with
  | plain h1 _ => exact aliasNotices_seen h1 (List.prefix_append ..).isInfix hn
  | default h1 _ _ _ => exact aliasNotices_seen h1 (List.prefix_append ..).isInfix hn

theorem recordNotices_seen {as ts us : List PTok} {d : RecordDecl}
    (h1 : Many Property as d.annots) (h3 : Many FieldDeclaration ts d.fields)
    (ha : as <:+: us) (ht : ts <:+: us) : ∀ n ∈ declNotices (.record d), NoticeSeen us n := by
  intro n hn
  simp only [declNotices] at hn
  rcases List.mem_append.mp hn with hn | hn
  · exact aliasNotices_seen h1 ha hn
  · obtain ⟨f, hf, hn⟩ := List.mem_flatMap.mp hn
    obtain ⟨vs, h4, h5⟩ := many_infix h3 hf
    have hi := h4.trans ht
    cases h5 with
    | @mk ts vs semi f ds h1 h2 _ =>
      rcases List.mem_append.mp hn with hn | hn
      · exact (fullNotices_seen h1 n hn).mono
          ((List.infix_append [] ts (vs ++ [semi])).trans (by simpa using hi))
      · obtain ⟨v, hv, hn⟩ := List.mem_flatMap.mp hn
        obtain ⟨us, h6, h7⟩ := commas_infix h2 hv
        exact (variableNotices_seen h7 n hn).mono ((h6.trans inner_infix).trans hi)

theorem namedNotices_seen {ts : List PTok} {d : NamedDecl} {sp : Option Span}
    (h : Named ts (d, sp)) : ∀ n ∈ declNotices d, NoticeSeen ts n := by
  intro n hn
  cases h with
  | fixed h1 _ _ _ _ _ _ => exact aliasNotices_seen h1 (List.prefix_append ..).isInfix hn
  | @enum as k name l ts r d ps syms dflt h1 _ _ _ _ _ _ =>
    exact aliasNotices_seen h1 ⟨[], k :: name :: l :: ts ++ r :: d, by simp⟩ hn
  | @record as k name l ts r ps fs h1 _ h2 _ h3 _ =>
    exact recordNotices_seen (d := ⟨_, ps, false, _, fs, _⟩) h1 h3
      ⟨[], k :: name :: l :: ts ++ [r], by simp⟩ ⟨as ++ [k, name, l], [r], by simp⟩ n hn
  | @error as k name l ts r ps fs h1 _ h2 _ h3 _ =>
    exact recordNotices_seen (d := ⟨_, ps, true, _, fs, _⟩) h1 h3
      ⟨[], k :: name :: l :: ts ++ [r], by simp⟩ ⟨as ++ [k, name, l], [r], by simp⟩ n hn

theorem messageNotices_seen {ts : List PTok} {m : MessageDecl} (h : Grammar.Message ts m) :
    ∀ n ∈ messageNotices m, NoticeSeen ts n := by
  intro n hn
  cases h with
  | @mk as rs name l ps r es semi _ res params _ _ h2 _ _ h3 _ _ _ =>
    simp only [messageNotices] at hn
    rcases List.mem_append.mp hn with hn | hn
    · cases h2 with
      | void _ => cases hn
      | plain h2 _ =>
        exact (plainNotices_seen h2 n hn).mono
          ⟨as, name :: l :: ps ++ r :: es ++ [semi], by simp⟩
    · obtain ⟨p, hp, hn⟩ := List.mem_flatMap.mp hn
      obtain ⟨us, h4, h5⟩ := commasOpt_infix h3 hp
      have hi : us <:+: as ++ rs ++ name :: l :: ps ++ r :: es ++ [semi] :=
        h4.trans ⟨as ++ rs ++ [name, l], r :: es ++ [semi], by simp⟩
      cases h5 with
      | mk h1 h2 =>
        rcases List.mem_append.mp hn with hn | hn
        · exact (fullNotices_seen h1 n hn).mono ((List.prefix_append ..).isInfix.trans hi)
        · exact (variableNotices_seen h2 n hn).mono ((List.suffix_append ..).isInfix.trans hi)

theorem fileNotices_seen {ts : List PTok} {tree : FileAst} (h : File ts tree) :
    ∀ n ∈ fileNotices tree, NoticeSeen ts n := by
  intro n hn
  cases h with
  | @protocol as k name l ts r _ _ h1 _ h2 _ h3 _ =>
    have hi2 : ts <:+: as ++ k :: name :: l :: ts ++ [r] := ⟨as ++ [k, name, l], [r], by simp⟩
    simp only [fileNotices] at hn
    obtain ⟨x, hx, hn⟩ := List.mem_flatMap.mp hn
    obtain ⟨us, h4, h5⟩ := many_infix h3 hx
    cases h5 with
    | import_ _ => cases hn
    | named h5 => exact (namedNotices_seen h5 n hn).mono (h4.trans hi2)
    | message h5 => exact (messageNotices_seen h5 n hn).mono (h4.trans hi2)
  | @schema ns ms ts name main body _ h2 h3 =>
    simp only [fileNotices] at hn
    rcases List.mem_append.mp hn with hn | hn
    · obtain ⟨x, hx, hn⟩ := List.mem_flatMap.mp hn
      obtain ⟨us, h4, h5⟩ := many_infix h3 hx
      cases h5 with
      | import_ _ => cases hn
      | named h5 =>
        exact (namedNotices_seen h5 n hn).mono (h4.trans (List.suffix_append ..).isInfix)
    · cases h2 with
      | none => cases hn
      | @some k us semi f _ h2 _ =>
        exact (fullNotices_seen h2 n hn).mono
          ((inner_infix (a := [k]) (b := [semi])).trans inner_infix)

end

end Avdl
