import Verif.Lemmas.Notations
import Verif.Lemmas.Repeat
/-!
# The reader and different notations: declarations
-/

namespace Avdl.Notations
open Spec Spec.Notations MuteReader Blank Repeat W

section
variable [CharTables] [FloatTables] [CaseTables]

/-! ## Everything is the same as itself -/

omit [CharTables] [CaseTables] in
theorem sameAnnots_refl (as : List Annot) : SameAnnots as as := by
  induction as with
  | nil => exact .nil
  | cons a as ih => exact .cons ⟨rfl, .inl rfl⟩ ih

mutual
theorem sameType_refl (pl : Place) : (t : FullType) → SameType pl t t
  | .mk as t sp => .annotated (sameAnnots_refl as) (samePlain_refl .exact t)
theorem samePlain_refl (pl : Place) : (t : PlainType) → SamePlain pl t t
  | .array t => .array (sameType_refl .nullFirst t)
  | .map t => .map (sameType_refl .nullFirst t)
  | .union ts => .union (sameTypes_refl ts)
  | .prim _ _ _ => .prim .same
  | .named _ _ _ => .named rfl
theorem sameTypes_refl : (ts : List FullType) → SameTypes ts ts
  | [] => .nil
  | t :: ts => .cons (sameType_refl .nullFirst t) (sameTypes_refl ts)
end

omit [CharTables] [CaseTables] in
theorem sameVar_refl (v : VarDecl) : SameVar v v :=
  ⟨sameAnnots_refl _, rfl, by cases v.default with
    | none => exact .none
    | some d => exact .some (.inl rfl)⟩

omit [CharTables] [CaseTables] in
theorem sameVars_refl (vs : List VarDecl) : List.Forall₂ SameVar vs vs := by
  induction vs with
  | nil => exact .nil
  | cons v vs ih => exact .cons (sameVar_refl v) ih

theorem sameField_refl (d : FieldDecl) : SameField d d :=
  ⟨⟨.exact, .inl rfl, sameType_refl .exact d.type⟩, sameVars_refl _⟩

theorem sameFields_refl (ds : List FieldDecl) : List.Forall₂ SameField ds ds := by
  induction ds with
  | nil => exact .nil
  | cons d ds ih => exact .cons (sameField_refl d) ih

/-! ## Variables -/

/-- Schemas that amount to the same for this default value. -/
def Ready (s s' : Schema) (d : Option JVal) : Prop :=
  ∀ j, walkDefault d = .ok j → (fixOptional s j).blank = (fixOptional s' j).blank

theorem walkJson_null {v : JVal} (h : walkJson v = .ok .null) : v = .null := by
  cases v with
  | null => rfl
  | true | false | str => cases h
  | int =>
    rw [walkJson] at h
    split at h <;> cases h
  | float text span =>
    rw [walkJson] at h
    unfold parseFloatingPointLiteral at h
    revert h
    rcases FloatTables.parse text with _ | ⟨_ | _ | _ | _⟩ <;> (intro h; cases h)
  | arr =>
    rw [walkJson] at h
    split at h <;> cases h
  | obj =>
    rw [walkJson] at h
    split at h <;> cases h

omit [CharTables] [FloatTables] [CaseTables] in
theorem fixOptional_none (s : Schema) : fixOptional s none = s := by
  unfold fixOptional
  split <;> rfl

omit [CharTables] [FloatTables] [CaseTables] in
theorem fixOptional_null (s : Schema) : fixOptional s (some .null) = s := by
  unfold fixOptional
  split <;> rfl

theorem ready_of_fit {pl : Place} {s s' : Schema} (h : Fit pl s s') {d : Option JVal}
    (hd : pl = .exact ∨ placeOf d = pl) : Ready s s' d := by
  intro j hj
  rcases hd with rfl | hd
  · exact fixOptional_of_half h j
  · subst hd
    cases d with
    | none =>
      cases hj
      rw [fixOptional_none, fixOptional_none]
      exact h
    | some v =>
      rw [walkDefault] at hj
      split at hj
      · rename_i i hi
        cases hj
        by_cases hv : v = .null
        · subst hv
          cases hi
          rw [fixOptional_null, fixOptional_null]
          exact h
        · have : placeOf (some v) = .nullLast := by
            cases v with
            | null => exact absurd rfl hv
            | _ => rfl
          rw [this] at h
          refine h i ?_
          rintro rfl
          exact hv (walkJson_null hi)
      · cases hj

omit [CharTables] [CaseTables] in
theorem walkDefault_agree {d d' : Option JVal} (h : SameDefault d d') :
    Alike (fun j j' => j = j' ∧ walkDefault d = .ok j) (walkDefault d) (walkDefault d') := by
  cases h with
  | none => exact .ok ⟨rfl, rfl⟩
  | @some v v' h =>
    rw [walkDefault, walkDefault]
    have h := sameValue_read h
    revert h
    generalize walkJson v = x
    generalize walkJson v' = y
    intro h
    cases h with
    | ok h => subst h; exact .ok ⟨rfl, rfl⟩
    | error e => exact .error e

omit [CharTables] [FloatTables] [CaseTables] in
theorem checkDefault_agree (n : String) (sp sp' : Option Span) (d : Option Json) {s s' : Schema}
    (h : s.blank = s'.blank) :
    Agree (fun _ _ => True) (checkDefault n sp d s) (checkDefault n sp' d s') := by
  unfold checkDefault
  cases d with
  | none => exact .pure trivial
  | some v =>
    dsimp only
    rw [← validateDefault_blank v s, h, validateDefault_blank]
    cases validateDefault v s' with
    | none => exact .pure trivial
    | some r => exact .fail _ _ _

/-- Fields that are the same, with this name. -/
def SameFieldNamed (v : VarDecl) (f f' : Field) : Prop :=
  f.blank = f'.blank ∧ f.name = plain v.ident

theorem walkVariable_agree (tokens tokens' : List Token) {s s' : Schema} (doc doc' : Option String)
    {v v' : VarDecl} (hv : SameVar v v') (hs : Ready s s' v.default) :
    Agree (SameFieldNamed v) (walkVariable tokens s doc v) (walkVariable tokens' s' doc' v') := by
  unfold walkVariable
  refine Agree.bind (Agree.walkDoc _ _ _ _) fun d d' _ => ?_
  refine Agree.bind (walkAnnots_agree variableCtx hv.annots {}) fun p p' hp => ?_
  subst hp
  refine Agree.bind (.lift (walkDefault_agree hv.default)) fun j j' hj => ?_
  obtain ⟨rfl, hj⟩ := hj
  have e : identifierText v'.ident = identifierText v.ident := hv.name.symm
  rw [e]
  refine Agree.bind (checkDefault_agree _ _ _ _ (hs j hj)) fun _ _ _ => .pure ⟨?_, rfl⟩
  show Field.mk _ _ _ _ _ _ _ = Field.mk _ _ _ _ _ _ _
  rw [hs j hj]

/-- Fields that are the same, with these names. -/
def SameFieldsNamed (names : List String) (fs fs' : List Field) : Prop :=
  fs.map Field.blank = fs'.map Field.blank ∧ fs.map Field.name = names

omit [CharTables] [FloatTables] [CaseTables] in
theorem names_of_blank {fs fs' : List Field} (h : fs.map Field.blank = fs'.map Field.blank) :
    fs.map Field.name = fs'.map Field.name := by
  have := congrArg (List.map Field.name) h
  rw [List.map_map, List.map_map] at this
  rwa [show Field.name ∘ Field.blank = Field.name from funext fieldName_blank] at this

theorem walkVariables_agree (tokens tokens' : List Token) {s s' : Schema} (doc doc' : Option String)
    {vs vs' : List VarDecl} (hv : List.Forall₂ SameVar vs vs')
    (hs : ∀ v ∈ vs, Ready s s' v.default) :
    Agree (SameFieldsNamed (vs.map fun v => plain v.ident)) (walkVariables tokens s doc vs)
      (walkVariables tokens' s' doc' vs') := by
  induction hv with
  | nil => exact .pure ⟨rfl, rfl⟩
  | @cons v v' vs vs' h _ ih =>
    rw [walkVariables, walkVariables]
    refine Agree.bind (walkVariable_agree _ _ doc doc' h (hs v List.mem_cons_self)) fun f f' hf => ?_
    refine Agree.bind (ih fun w hw => hs w (List.mem_cons_of_mem _ hw)) fun fs fs' hfs => .pure ⟨?_, ?_⟩
    · rw [List.map_cons, List.map_cons, hf.1, hfs.1]
    · rw [List.map_cons, List.map_cons, hf.2, hfs.2]

theorem walkField_agree (tokens tokens' : List Token) (ns : Option String) {d d' : FieldDecl}
    (h : SameField d d') :
    Agree (SameFieldsNamed (d.vars.map fun v => plain v.ident)) (walkField tokens ns d)
      (walkField tokens' ns d') := by
  obtain ⟨⟨pl, hpl, ht⟩, hv⟩ := h
  unfold walkField
  refine Agree.bind (Agree.walkDoc _ _ _ _) fun doc doc' _ => ?_
  refine Agree.bind (sameType_read ns ht) fun s s' hs => ?_
  refine walkVariables_agree _ _ _ _ hv fun v hmem => ready_of_fit hs ?_
  rcases hpl with h | h
  · exact .inl h
  · exact .inr (h v hmem)

/-! ## Fields -/

omit [CharTables] [FloatTables] [CaseTables] in
theorem checkFieldNames_agree (r : String) {fs fs' : List Field}
    (h : fs.map Field.name = fs'.map Field.name) (seen : List String) (spans spans' : List (Option Span)) :
    Agree Eq (checkFieldNames r seen fs spans) (checkFieldNames r seen fs' spans') := by
  induction fs generalizing fs' seen spans spans' with
  | nil =>
    cases fs' with
    | nil => exact .pure rfl
    | cons => cases h
  | cons f fs ih =>
    cases fs' with
    | nil => cases h
    | cons f' fs' =>
      rw [List.map_cons, List.map_cons] at h
      injection h with h1 h2
      rw [checkFieldNames, checkFieldNames, h1]
      split
      · exact .fail _ _ _
      · exact ih h2 _ _ _

omit [CharTables] [FloatTables] [CaseTables] in
theorem checkFieldNames_ok (r : String) {fs : List Field} {names : List String}
    (h : fs.map Field.name = names) {seen : List String} (hn : (seen ++ names).Nodup)
    (spans : List (Option Span)) :
    checkFieldNames r seen fs spans = W.pure (seen ++ names) := by
  subst h
  induction fs generalizing seen spans with
  | nil => rw [List.map_nil, List.append_nil]; rfl
  | cons f fs ih =>
    rw [checkFieldNames]
    have hf : f.name ∉ seen := by
      intro hm
      rw [List.nodup_append] at hn
      exact hn.2.2 _ hm _ List.mem_cons_self rfl
    have e : seen ++ List.map Field.name (f :: fs) = (seen ++ [f.name]) ++ fs.map Field.name := by
      rw [List.append_assoc]; rfl
    rw [e] at hn ⊢
    rw [if_neg (by rw [List.contains_eq_mem]; simpa using hf), ih _ hn]

theorem walkFields_each (tokens tokens' : List Token) (ns : Option String) (r : String)
    {ds ds' : List FieldDecl} (h : List.Forall₂ SameField ds ds') (seen : List String) :
    Agree (fun fs fs' => fs.map Field.blank = fs'.map Field.blank)
      (walkFields tokens ns r seen ds) (walkFields tokens' ns r seen ds') := by
  induction h generalizing seen with
  | nil => exact .pure rfl
  | @cons d d' ds ds' h _ ih =>
    rw [walkFields, walkFields]
    refine Agree.bind (walkField_agree _ _ ns h) fun fs fs' hfs => ?_
    refine Agree.bind (checkFieldNames_agree r (names_of_blank hfs.1) _ _ _) fun x y hxy => ?_
    subst hxy
    refine Agree.bind (ih x) fun gs gs' hgs => .pure ?_
    rw [List.map_append, List.map_append, hfs.1, hgs]

/-- A walk that does not touch the log. -/
def Silent {α : Type} (m : W α) : Prop := ∃ e, m = W.lift e

omit [CharTables] [FloatTables] [CaseTables] in
theorem Silent.bind {α β : Type} {m : W α} {k : α → W β} (hm : Silent m) (hk : ∀ a, Silent (k a)) :
    Silent (W.bind m k) := by
  obtain ⟨e, rfl⟩ := hm
  cases e with
  | error f => exact ⟨.error f, rfl⟩
  | ok a =>
    obtain ⟨e', he⟩ := hk a
    exact ⟨e', by rw [← he]; rfl⟩

mutual
theorem silent_full (ns : Option String) : (t : FullType) → Notations.Unannotated t →
    Silent (walkFullType ns t)
  | .mk as t sp, h => by
      obtain ⟨rfl, h⟩ := h
      rw [walkFullType]
      show Silent (W.bind (walkPlainType ns t) fun s => W.pure s)
      exact Silent.bind (silent_plain ns t h) fun s => ⟨.ok s, rfl⟩
theorem silent_plain (ns : Option String) : (t : PlainType) → PlainUnannotated t →
    Silent (walkPlainType ns t)
  | .array t, h => by
      rw [walkPlainType]
      exact Silent.bind (silent_full ns t h) fun s => ⟨.ok _, rfl⟩
  | .map t, h => by
      rw [walkPlainType]
      exact Silent.bind (silent_full ns t h) fun s => ⟨.ok _, rfl⟩
  | .union ts, h => by
      rw [walkPlainType]
      exact Silent.bind (silent_all ns ts h) fun ss => ⟨_, rfl⟩
  | .prim p o sp, _ => by
      rw [walkPlainType]
      exact Silent.bind ⟨_, rfl⟩ fun s => ⟨_, rfl⟩
  | .named i sp o, _ => by
      rw [walkPlainType]
      exact ⟨_, rfl⟩
theorem silent_all (ns : Option String) : (ts : List FullType) → AllUnannotated ts →
    Silent (walkFullTypes ns ts)
  | [], _ => ⟨.ok [], rfl⟩
  | t :: ts, h => by
      rw [walkFullTypes]
      exact Silent.bind (silent_full ns t h.1) fun s => Silent.bind (silent_all ns ts h.2) fun ss =>
        ⟨.ok _, rfl⟩
end

omit [CharTables] [FloatTables] [CaseTables] in
theorem Agree.docRight {α β : Type} {R : α → β → Prop} {m : W α} {k : Option String → W β}
    (tokens : List Token) (start : Nat) (h : ∀ d, Agree R m (k d)) :
    Agree R m (W.bind (Avdl.walkDoc tokens start) k) := by
  intro l l' hl
  unfold W.bind Avdl.walkDoc
  rcases extractDocComment tokens start with ⟨_ | i, doc⟩
  · exact h doc l l' hl
  · exact h doc l _ hl

theorem walkVariables_append (tokens : List Token) (s : Schema) (doc : Option String)
    (vs vs' : List VarDecl) : walkVariables tokens s doc (vs ++ vs') =
      W.bind (walkVariables tokens s doc vs) fun fs =>
        W.bind (walkVariables tokens s doc vs') fun gs => W.pure (fs ++ gs) := by
  induction vs with
  | nil =>
    funext l
    show walkVariables tokens s doc vs' l = W.bind (walkVariables tokens s doc vs') (fun gs => W.pure gs) l
    unfold W.bind
    cases walkVariables tokens s doc vs' l <;> rfl
  | cons v vs ih =>
    rw [List.cons_append, walkVariables, walkVariables, ih]
    simp only [bind_assoc]
    rfl

omit [CharTables] [FloatTables] [CaseTables] in
theorem pure_bind {α β : Type} (a : α) (k : α → W β) : W.bind (W.pure a) k = k a := rfl

omit [CharTables] [FloatTables] [CaseTables] in
theorem ok_bind {α β : Type} (a : α) (k : α → W β) : W.bind (W.lift (.ok a)) k = k a := rfl

omit [CharTables] [FloatTables] [CaseTables] in
theorem error_bind {α β : Type} (f : Fault) (k : α → W β) :
    W.bind (W.lift (.error f)) k = W.lift (.error f) := rfl

theorem walkFields_split_here (tokens tokens' : List Token) (ns : Option String) (r : String)
    {start start' start'' : Nat} {type : FullType} {vs vs' : List VarDecl} {y : List FieldDecl}
    (hu : Notations.Unannotated type) {seen : List String}
    (hn : (seen ++ fieldNames (⟨start, type, vs ++ vs'⟩ :: y)).Nodup) :
    Agree (fun fs fs' => fs.map Field.blank = fs'.map Field.blank)
      (walkFields tokens ns r seen (⟨start, type, vs ++ vs'⟩ :: y))
      (walkFields tokens' ns r seen (⟨start', type, vs⟩ :: ⟨start'', type, vs'⟩ :: y)) := by
  obtain ⟨e, he⟩ := silent_full ns type hu
  cases e with
  | error f =>
    simp only [walkFields, walkField, he, bind_assoc, error_bind]
    exact Agree.bind (Agree.walkDoc _ _ _ _) fun _ _ _ => .lift (.error rfl)
  | ok s =>
    have hn' : (seen ++ (vs.map (fun v => plain v.ident) ++ vs'.map fun v => plain v.ident)).Nodup := by
      refine hn.sublist (List.Sublist.append_left ?_ _)
      unfold fieldNames
      rw [List.flatMap_cons, List.map_append, List.map_append]
      exact List.sublist_append_left _ _
    have hn'' : (seen ++ vs.map fun v => plain v.ident).Nodup :=
      hn'.sublist (List.Sublist.append_left (List.sublist_append_left _ _) _)
    have hr : ∀ (ws : List VarDecl), ∀ v ∈ ws, Ready s s v.default := fun _ _ _ _ _ => rfl
    simp only [walkFields, walkField, he, bind_assoc, ok_bind, walkVariables_append, pure_bind]
    refine Agree.bind (Agree.walkDoc _ _ _ _) fun doc doc' _ => ?_
    refine Agree.bind (walkVariables_agree _ _ _ _ (sameVars_refl vs) (hr vs)) fun fs fs' hfs => ?_
    rw [checkFieldNames_ok r ((names_of_blank hfs.1).symm.trans hfs.2) hn'', pure_bind]
    refine Agree.docRight _ _ fun doc'' => ?_
    refine Agree.bind (walkVariables_agree _ _ _ _ (sameVars_refl vs') (hr vs')) fun gs gs' hgs => ?_
    rw [checkFieldNames_ok r ((names_of_blank hgs.1).symm.trans hgs.2)
      (by rw [List.append_assoc]; exact hn'), pure_bind,
      checkFieldNames_ok r (by rw [List.map_append, hfs.2, hgs.2]) hn', pure_bind, List.append_assoc]
    refine Agree.bind (walkFields_each _ _ ns r (sameFields_refl y) _) fun z z' hz => .pure ?_
    simp only [List.map_append, hfs.1, hgs.1, hz, List.append_assoc]

theorem walkFields_split (tokens tokens' : List Token) (ns : Option String) (r : String)
    {start start' start'' : Nat} {type : FullType} {vs vs' : List VarDecl} {x y : List FieldDecl}
    (hu : Notations.Unannotated type) {seen : List String}
    (hn : (seen ++ fieldNames (x ++ ⟨start, type, vs ++ vs'⟩ :: y)).Nodup) :
    Agree (fun fs fs' => fs.map Field.blank = fs'.map Field.blank)
      (walkFields tokens ns r seen (x ++ ⟨start, type, vs ++ vs'⟩ :: y))
      (walkFields tokens' ns r seen (x ++ ⟨start', type, vs⟩ :: ⟨start'', type, vs'⟩ :: y)) := by
  induction x generalizing seen with
  | nil => exact walkFields_split_here _ _ ns r hu hn
  | cons d x ih =>
    rw [List.cons_append, List.cons_append, walkFields, walkFields]
    have e : fieldNames (d :: x ++ ⟨start, type, vs ++ vs'⟩ :: y) =
        (d.vars.map fun v => plain v.ident) ++ fieldNames (x ++ ⟨start, type, vs ++ vs'⟩ :: y) := by
      unfold fieldNames
      rw [List.cons_append, List.flatMap_cons, List.map_append]
    rw [e, ← List.append_assoc] at hn
    refine Agree.bind (walkField_agree _ _ ns (sameField_refl d)) fun fs fs' hfs => ?_
    have hn' := hn.sublist (List.sublist_append_left _ _)
    rw [checkFieldNames_ok r hfs.2 hn', checkFieldNames_ok r ((names_of_blank hfs.1).symm.trans hfs.2) hn',
      pure_bind, pure_bind]
    refine Agree.bind (ih hn) fun gs gs' hgs => .pure ?_
    rw [List.map_append, List.map_append, hfs.1, hgs]

theorem sameFields_read (tokens tokens' : List Token) (ns : Option String) (r : String)
    {ds ds' : List FieldDecl} (h : SameFields ds ds') :
    Agree (fun fs fs' => fs.map Field.blank = fs'.map Field.blank)
      (walkFields tokens ns r [] ds) (walkFields tokens' ns r [] ds') := by
  cases h with
  | each h => exact walkFields_each _ _ ns r h []
  | split hu hn => exact walkFields_split _ _ ns r hu hn

/-! ## Named types -/

/-- The same schema and namespace. -/
def SameNs (a b : Schema × Option String) : Prop := a.1.blank = b.1.blank ∧ a.2 = b.2

theorem walkRecord_agree (tokens tokens' : List Token) (ns : Option String) {d d' : RecordDecl}
    (h : SameHead d.annots d.ident d'.annots d'.ident) (he : d.isError = d'.isError)
    (hf : SameFields d.fields d'.fields) :
    Agree SameNs (walkRecord tokens ns d) (walkRecord tokens' ns d') := by
  unfold walkRecord
  refine Agree.bind (Agree.walkDoc _ _ _ _) fun doc doc' _ => ?_
  refine Agree.bind (sameHead_read namedCtx rfl h) fun p p' hp => ?_
  dsimp only
  rw [← hp.ns, ← hp.name, ← hp.aliases, ← hp.props, ← he]
  refine Agree.bind (.failIf rfl _ _ _) fun _ _ _ => ?_
  refine Agree.bind (sameFields_read _ _ _ _ hf) fun fs fs' hfs => .pure ⟨?_, rfl⟩
  show Schema.record _ _ _ _ _ _ _ = Schema.record _ _ _ _ _ _ _
  rw [blankFields_map, blankFields_map, hfs]

omit [CharTables] [FloatTables] [CaseTables] in
theorem checkSymbols_agree {ss ss' : List (String × Option Span)} (h : SameNames ss ss')
    (seen : List String) : Agree Eq (checkSymbols seen ss) (checkSymbols seen ss') := by
  induction h generalizing seen with
  | nil => exact .pure rfl
  | @cons a b _ _ h _ ih =>
    rw [checkSymbols, checkSymbols, show identifierText b.1 = identifierText a.1 from h.symm]
    split
    · exact .fail _ _ _
    · exact ih _

omit [CharTables] [FloatTables] [CaseTables] in
theorem checkEnumDefault_agree (sy : List String) {d d' : Option (String × Option Span)}
    (h : SameNames d.toList d'.toList) :
    Agree Eq (checkEnumDefault sy d) (checkEnumDefault sy d') := by
  cases d with
  | none =>
    cases d' with
    | none => exact .pure rfl
    | some => cases h
  | some a =>
    cases d' with
    | none => cases h
    | some b =>
      cases h with
      | cons h _ =>
        rw [checkEnumDefault, checkEnumDefault, show identifierText b.1 = identifierText a.1 from h.symm]
        split
        · exact .pure rfl
        · exact .fail _ _ _

theorem walkEnum_agree (tokens tokens' : List Token) (ns : Option String) {d d' : EnumDecl}
    (h : SameHead d.annots d.ident d'.annots d'.ident) (hs : SameNames d.symbols d'.symbols)
    (hd : SameNames d.default.toList d'.default.toList) :
    Agree (fun s s' => s.blank = s'.blank) (walkEnum tokens ns d) (walkEnum tokens' ns d') := by
  unfold walkEnum
  refine Agree.bind (Agree.walkDoc _ _ _ _) fun doc doc' _ => ?_
  refine Agree.bind (sameHead_read enumCtx rfl h) fun p p' hp => ?_
  dsimp only
  rw [← hp.ns, ← hp.name, ← hp.aliases, ← hp.props]
  refine Agree.bind (.failIf rfl _ _ _) fun _ _ _ => ?_
  refine Agree.bind (checkSymbols_agree hs []) fun sy sy' e => ?_
  subst e
  refine Agree.bind (checkEnumDefault_agree sy hd) fun x x' e => ?_
  subst e
  exact .pure rfl

theorem walkFixed_agree (tokens tokens' : List Token) (ns : Option String) {d d' : FixedDecl}
    (h : SameHead d.annots d.ident d'.annots d'.ident) (hs : SameNumeral d.size d'.size) :
    Agree (fun s s' => s.blank = s'.blank) (walkFixed tokens ns d) (walkFixed tokens' ns d') := by
  unfold walkFixed
  refine Agree.bind (Agree.walkDoc _ _ _ _) fun doc doc' _ => ?_
  refine Agree.bind (sameHead_read namedCtx rfl h) fun p p' hp => ?_
  dsimp only
  rw [← hp.ns, ← hp.name, ← hp.aliases, ← hp.props, sameNumeral_read hs]
  refine Agree.bind (.failIf rfl _ _ _) fun _ _ _ => ?_
  cases parseIntegerAsU32 d'.size with
  | none => exact .fail _ _ _
  | some n => exact .pure rfl

theorem walkNamed_agree (tokens tokens' : List Token) (ns : Option String) {d d' : NamedDecl}
    (h : SameNamed d d') : Agree SameNs (walkNamed tokens ns d) (walkNamed tokens' ns d') := by
  cases h with
  | record h he hf => exact walkRecord_agree _ _ ns h he hf
  | enum h hs hd =>
    exact Agree.bind (walkEnum_agree _ _ ns h hs hd) fun s s' hss => .pure ⟨hss, rfl⟩
  | fixed h hs =>
    exact Agree.bind (walkFixed_agree _ _ ns h hs) fun s s' hss => .pure ⟨hss, rfl⟩

/-! ## Messages -/

theorem walkParams_agree (tokens tokens' : List Token) (ns : Option String) (m : String)
    {ps ps' : List Param} (h : List.Forall₂ SameParam ps ps') (seen : List String) :
    Agree (fun fs fs' => fs.map Field.blank = fs'.map Field.blank)
      (walkParams tokens ns m seen ps) (walkParams tokens' ns m seen ps') := by
  induction h generalizing seen with
  | nil => exact .pure rfl
  | @cons p p' _ _ h _ ih =>
    obtain ⟨⟨pl, hpl, ht⟩, hv⟩ := h
    rw [walkParams, walkParams]
    refine Agree.bind (Agree.walkDoc _ _ _ _) fun doc doc' _ => ?_
    refine Agree.bind (sameType_read ns ht) fun s s' hs => ?_
    refine Agree.bind (walkVariable_agree _ _ doc doc' hv (ready_of_fit hs ?_)) fun f f' hf => ?_
    · rcases hpl with h | h
      · exact .inl h
      · exact .inr (h _ (List.mem_singleton.mpr rfl))
    · have e : f.name = f'.name := by rw [← fieldName_blank f, hf.1, fieldName_blank]
      rw [e]
      split
      · exact .fail _ _ _
      · refine Agree.bind (ih _) fun fs fs' hfs => .pure ?_
        rw [List.map_cons, List.map_cons, hf.1, hfs]

omit [FloatTables] [CharTables] [CaseTables] in
theorem messageErrors_blank (ns : Option String) {es es' : List (String × Option Span)}
    (h : SameNames es es') : (messageErrors ns es).map (List.map Schema.blank) =
      (messageErrors ns es').map (List.map Schema.blank) := by
  have e : ∀ {es es' : List (String × Option Span)}, SameNames es es' →
      (es.map fun e => refTo (identifierText e.1) e.2 ns).map Schema.blank =
      (es'.map fun e => refTo (identifierText e.1) e.2 ns).map Schema.blank := by
    intro es es' h
    induction h with
    | nil => rfl
    | @cons a b _ _ h _ ih =>
      simp only [List.map_cons] at ih ⊢
      rw [ih, show identifierText a.1 = identifierText b.1 from h,
        blank_of_half (refTo_half (i := identifierText b.1) rfl a.2 b.2 ns)]
  cases h with
  | nil => rfl
  | cons h hs => exact congrArg some (e (.cons h hs))

/-- Result types that are the same to a message with these properties. -/
def SameResponse (ps : Props) (s s' : Schema) : Prop :=
  s.blank = s'.blank ∧ (!ps.isEmpty && isTypeReference s) = (!ps.isEmpty && isTypeReference s')

theorem sameResult_read (ns : Option String) {as : List Annot} {r r' : Option PlainType}
    (h : SameResult as r r') {ps : Props} (hps : as = [] → ps = []) :
    Agree (SameResponse ps) (walkResult ns r) (walkResult ns r') := by
  cases h with
  | void => exact .pure ⟨rfl, rfl⟩
  | null => exact .pure ⟨rfl, rfl⟩
  | type hpl h =>
    refine (samePlain_read ns h).imp fun s s' hs => ?_
    rcases hpl with rfl | ⟨rfl, ha⟩
    · refine ⟨blank_of_half hs, ?_⟩
      rw [← isTypeReference_half s, show half s = half s' from hs, isTypeReference_half]
    · refine ⟨hs, ?_⟩
      rw [hps ha]
      rfl

theorem walkAnnots_facts (ctx : PropCtx) {as as' : List Annot} (h : SameAnnots as as') :
    Agree (fun p p' => p = p' ∧ (as = [] → p.props = [])) (walkAnnots ctx {} as)
      (walkAnnots ctx {} as') := by
  cases h with
  | nil => exact .pure ⟨rfl, fun _ => rfl⟩
  | cons h hs =>
    exact (walkAnnots_agree ctx (.cons h hs) {}).imp fun _ _ e => ⟨e, fun h => nomatch h⟩

/-- The same message under the same name. -/
def SameNm (a b : String × Message) : Prop := blankMessage a = blankMessage b

theorem walkMessage_agree (tokens tokens' : List Token) (ns : Option String) {d d' : MessageDecl}
    (h : SameMessage d d') : Agree SameNm (walkMessage tokens ns d) (walkMessage tokens' ns d') := by
  unfold walkMessage
  refine Agree.bind (Agree.walkDoc _ _ _ _) fun doc doc' _ => ?_
  refine Agree.bind (walkAnnots_facts messageCtx h.annots) fun p p' hp => ?_
  obtain ⟨rfl, hp⟩ := hp
  refine Agree.bind (sameResult_read ns h.result hp) fun s s' hs => ?_
  have hi : identifierText d'.ident = identifierText d.ident := h.name.symm
  refine Agree.bind (.failIf hs.2 _ _ _) fun _ _ _ => ?_
  dsimp only
  rw [hi, ← h.oneway]
  refine Agree.bind (walkParams_agree _ _ ns _ h.params []) fun fs fs' hfs => ?_
  refine Agree.bind (.failIf ?_ _ _ _) fun _ _ _ => .pure ?_
  · rw [← isNull_blank s, hs.1, isNull_blank]
  · show (_, Message.mk _ _ _ _ _ _) = (_, Message.mk _ _ _ _ _ _)
    dsimp only
    rw [hfs, hs.1, messageErrors_blank ns h.errors]

/-! ## Files -/

omit [FloatTables] [CharTables] [CaseTables] in
theorem sameImport_read {i i' : ImportStmt} (h : SameImport i i') :
    (DeclItem.import_ (importEntry i)).blank = (DeclItem.import_ (importEntry i')).blank := by
  show DeclItem.import_ (ImportEntry.mk i.kind (getStringFromLiteral i.location) _) =
    DeclItem.import_ (ImportEntry.mk i'.kind (getStringFromLiteral i'.location) _)
  rw [h.1, sameString_read h.2]

/-- The same messages, declarations and namespace. -/
def SameBody (r r' : List (String × Message) × List DeclItem × Option String) : Prop :=
  r.1.map blankMessage = r'.1.map blankMessage ∧ r.2.1.map DeclItem.blank = r'.2.1.map DeclItem.blank ∧
    r.2.2 = r'.2.2

theorem walkBody_agree (tokens tokens' : List Token) {items items' : List BodyItem}
    (h : List.Forall₂ SameBodyItem items items') (ns : Option String)
    {ms ms' : List (String × Message)} (hms : ms.map blankMessage = ms'.map blankMessage) :
    Agree SameBody (walkBody tokens ns ms items) (walkBody tokens' ns ms' items') := by
  induction h generalizing ns ms ms' with
  | nil => exact .pure ⟨hms, rfl, rfl⟩
  | cons h _ ih =>
    cases h with
    | import_ h =>
      rw [walkBody, walkBody]
      refine Agree.bind (ih ns hms) fun r r' hr => .pure ⟨hr.1, ?_, hr.2.2⟩
      rw [List.map_cons, List.map_cons, sameImport_read h, hr.2.1]
    | named h =>
      rw [walkBody, walkBody]
      refine Agree.bind (walkNamed_agree _ _ ns h) fun s s' hs => ?_
      rw [← hs.2]
      refine Agree.bind (ih s.2 hms) fun r r' hr => .pure ⟨hr.1, ?_, hr.2.2⟩
      rw [List.map_cons, List.map_cons, hr.2.1]
      show DeclItem.type _ _ _ :: _ = DeclItem.type _ _ _ :: _
      rw [hs.1]
    | message h =>
      rw [walkBody, walkBody]
      refine Agree.bind (walkMessage_agree _ _ ns h) fun nm nm' hnm => ih ns ?_
      have hnm : (nm.1, nm.2.blank) = (nm'.1, nm'.2.blank) := hnm
      injection hnm with h1 h2
      rw [← insertMessage_blank, ← insertMessage_blank, hms, h1, h2]

/-- The same file and declarations. -/
def SameRead (r r' : IdlFile × List DeclItem) : Prop :=
  r.1.blank = r'.1.blank ∧ r.2.map DeclItem.blank = r'.2.map DeclItem.blank

theorem walkProtocol_agree (tokens tokens' : List Token) {d d' : ProtocolDecl}
    (h : SameHead d.annots d.ident d'.annots d'.ident)
    (hb : List.Forall₂ SameBodyItem d.body d'.body) :
    Agree (fun r r' => r.1.blank = r'.1.blank ∧ r.2.map DeclItem.blank = r'.2.map DeclItem.blank)
      (walkProtocol tokens d) (walkProtocol tokens' d') := by
  unfold walkProtocol
  refine Agree.bind (Agree.walkDoc _ _ _ _) fun doc doc' _ => ?_
  refine Agree.bind (sameHead_read protocolCtx rfl h) fun p p' hp => ?_
  dsimp only
  rw [← hp.ns, ← hp.name, ← hp.props]
  refine Agree.bind (.failIf rfl _ _ _) fun _ _ _ => ?_
  refine Agree.bind (walkBody_agree _ _ hb _ rfl) fun r r' hr => .pure ⟨?_, hr.2.1⟩
  show Protocol.mk _ _ _ _ _ _ = Protocol.mk _ _ _ _ _ _
  dsimp only
  rw [hr.1, hr.2.2]

/-- The same schemas, declarations and namespace. -/
def SameItems (r r' : List Schema × List DeclItem × Option String) : Prop :=
  r.1.map Schema.blank = r'.1.map Schema.blank ∧ r.2.1.map DeclItem.blank = r'.2.1.map DeclItem.blank ∧
    r.2.2 = r'.2.2

theorem walkItems_agree (tokens tokens' : List Token) {items items' : List FileItem}
    (h : List.Forall₂ SameFileItem items items') (ns : Option String) :
    Agree SameItems (walkItems tokens ns items) (walkItems tokens' ns items') := by
  induction h generalizing ns with
  | nil => exact .pure ⟨rfl, rfl, rfl⟩
  | cons h _ ih =>
    cases h with
    | import_ h =>
      rw [walkItems, walkItems]
      refine Agree.bind (ih ns) fun r r' hr => .pure ⟨hr.1, ?_, hr.2.2⟩
      rw [List.map_cons, List.map_cons, sameImport_read h, hr.2.1]
    | named h =>
      rw [walkItems, walkItems]
      refine Agree.bind (walkNamed_agree _ _ ns h) fun s s' hs => ?_
      rw [← hs.2]
      refine Agree.bind (ih s.2) fun r r' hr => .pure ⟨?_, ?_, hr.2.2⟩
      · rw [List.map_cons, List.map_cons, hr.1, hs.1]
      · rw [List.map_cons, List.map_cons, hr.2.1]
        show DeclItem.type _ _ _ :: _ = DeclItem.type _ _ _ :: _
        rw [hs.1]

theorem sameTree_read (tokens tokens' : List Token) {ast ast' : FileAst} (h : SameTree ast ast') :
    Agree SameRead (walkFile tokens ast) (walkFile tokens' ast') := by
  cases h with
  | protocol h hb =>
    rw [walkFile, walkFile]
    refine Agree.bind (walkProtocol_agree _ _ h hb) fun r r' hr => .pure ⟨?_, hr.2⟩
    show IdlFile.protocol _ = IdlFile.protocol _
    rw [hr.1]
  | @schema ns ns' main main' body body' hns hm hb =>
    have hns : ns.map identifierText = ns'.map identifierText := hns
    rw [walkFile, walkFile, hns]
    refine Agree.bind (walkItems_agree _ _ hb _) fun r r' hr => ?_
    cases hm with
    | none =>
      refine .pure ⟨?_, hr.2.1⟩
      show IdlFile.named _ = IdlFile.named _
      rw [hr.1]
    | some ht =>
      dsimp only
      rw [hr.2.2]
      refine Agree.bind (sameType_read _ ht) fun s s' hs => .pure ⟨?_, hr.2.1⟩
      show IdlFile.schema _ = IdlFile.schema _
      rw [show s.blank = s'.blank from hs]

omit [FloatTables] [CharTables] [CaseTables] in
theorem sameNames_refl (ns : List (String × Option Span)) : SameNames ns ns := by
  induction ns with
  | nil => exact .nil
  | cons n ns ih => exact .cons rfl ih

theorem sameNamed_refl (d : NamedDecl) : SameNamed d d := by
  cases d with
  | record d => exact .record (.same (sameAnnots_refl _) rfl) rfl (.each (sameFields_refl _))
  | enum d => exact .enum (.same (sameAnnots_refl _) rfl) (sameNames_refl _) (sameNames_refl _)
  | fixed d => exact .fixed (.same (sameAnnots_refl _) rfl) (.inl rfl)

theorem sameParams_refl (ps : List Param) : List.Forall₂ SameParam ps ps := by
  induction ps with
  | nil => exact .nil
  | cons p ps ih =>
    exact .cons ⟨⟨.exact, .inl rfl, sameType_refl .exact p.type⟩, sameVar_refl _⟩ ih

theorem sameMessage_refl (m : MessageDecl) : SameMessage m m where
  annots := sameAnnots_refl _
  result := by
    cases m.result with
    | none => exact .void
    | some t => exact .type (.inl rfl) (samePlain_refl .exact t)
  name := rfl
  params := sameParams_refl _
  oneway := rfl
  errors := sameNames_refl _

theorem sameBody_refl (items : List BodyItem) : List.Forall₂ SameBodyItem items items := by
  induction items with
  | nil => exact .nil
  | cons i items ih =>
    refine .cons ?_ ih
    cases i with
    | import_ i => exact .import_ ⟨rfl, .inl rfl⟩
    | named d sp => exact .named (sameNamed_refl d)
    | message m => exact .message (sameMessage_refl m)

theorem sameItems_refl (items : List FileItem) : List.Forall₂ SameFileItem items items := by
  induction items with
  | nil => exact .nil
  | cons i items ih =>
    refine .cons ?_ ih
    cases i with
    | import_ i => exact .import_ ⟨rfl, .inl rfl⟩
    | named d sp => exact .named (sameNamed_refl d)

theorem sameTree_refl (ast : FileAst) : SameTree ast ast := by
  cases ast with
  | protocol d => exact .protocol (.same (sameAnnots_refl _) rfl) (sameBody_refl _)
  | schema ns main body =>
    refine .schema rfl ?_ (sameItems_refl _)
    cases main with
    | none => exact .none
    | some t => exact .some (sameType_refl .nullFirst t)

/-! ## Repeated imports -/

omit [CharTables] [FloatTables] [CaseTables] in
theorem bind_pure {α : Type} (m : W α) : W.bind m W.pure = m := by
  funext l
  unfold W.bind
  cases m l with
  | error e => rfl
  | ok r => rfl

/-- The second list has one more import behind some others. -/
def Inserted (i : ImportEntry) (paths : List String) (ds ds' : List DeclItem) : Prop :=
  ∃ a b a' b', ds = a ++ b ∧ ds' = a' ++ .import_ i :: b' ∧
    a.map DeclItem.blank = a'.map DeclItem.blank ∧ b.map DeclItem.blank = b'.map DeclItem.blank ∧
    ∀ p ∈ paths, ∃ e, DeclItem.import_ e ∈ a ∧ e.path = p

omit [CharTables] [FloatTables] [CaseTables] in
theorem Inserted.cons {i : ImportEntry} {paths : List String} {ds ds' : List DeclItem}
    (h : Inserted i paths ds ds') {d d' : DeclItem} (hd : d.blank = d'.blank) :
    Inserted i paths (d :: ds) (d' :: ds') := by
  obtain ⟨a, b, a', b', rfl, rfl, ha, hb, hp⟩ := h
  refine ⟨d :: a, b, d' :: a', b', rfl, rfl, by rw [List.map_cons, List.map_cons, hd, ha], hb, ?_⟩
  intro p h
  obtain ⟨e, he, hep⟩ := hp p h
  exact ⟨e, List.mem_cons_of_mem _ he, hep⟩

omit [CharTables] [FloatTables] [CaseTables] in
theorem Inserted.import_ {i : ImportEntry} {paths : List String} {ds ds' : List DeclItem}
    (h : Inserted i paths ds ds') (e : ImportEntry) :
    Inserted i (e.path :: paths) (.import_ e :: ds) (.import_ e :: ds') := by
  obtain ⟨a, b, a', b', rfl, rfl, ha, hb, hp⟩ := h
  refine ⟨.import_ e :: a, b, .import_ e :: a', b', rfl, rfl, by rw [List.map_cons, List.map_cons, ha],
    hb, ?_⟩
  intro p h
  rcases List.mem_cons.mp h with rfl | h
  · exact ⟨e, List.mem_cons_self, rfl⟩
  · obtain ⟨e', he, hep⟩ := hp p h
    exact ⟨e', List.mem_cons_of_mem _ he, hep⟩

omit [CharTables] [FloatTables] [CaseTables] in
theorem Inserted.essence {i : ImportEntry} {paths : List String} {ds ds' : List DeclItem}
    (h : Inserted i paths ds ds') (hi : i.path ∈ paths) : essence ds = essence ds' := by
  obtain ⟨a, b, a', b', rfl, rfl, ha, hb, hp⟩ := h
  obtain ⟨e, he, hep⟩ := hp _ hi
  unfold Repeat.essence
  rw [List.map_append, List.map_append, List.map_cons, ha, hb]
  refine (onceEach_insert (p := i.path) (i := i.mute) rfl _ _ [] (.inr ⟨e.mute, ?_, hep⟩)).symm
  rw [← ha]
  exact List.mem_map_of_mem (f := DeclItem.blank) he

/-- The paths of the imports in the body of a protocol. -/
def bodyPaths : List BodyItem → List String
  | [] => []
  | .import_ i :: items => (importEntry i).path :: bodyPaths items
  | _ :: items => bodyPaths items

/-- The paths of the imports in a schema file. -/
def itemPaths : List FileItem → List String
  | [] => []
  | .import_ i :: items => (importEntry i).path :: itemPaths items
  | _ :: items => itemPaths items

omit [CharTables] [FloatTables] [CaseTables] in
theorem mem_bodyPaths (x y : List BodyItem) (i : ImportStmt) :
    (importEntry i).path ∈ bodyPaths (x ++ .import_ i :: y) := by
  induction x with
  | nil => exact List.mem_cons_self
  | cons d x ih =>
    cases d with
    | import_ j => exact List.mem_cons_of_mem _ ih
    | named d sp => exact ih
    | message m => exact ih

omit [CharTables] [FloatTables] [CaseTables] in
theorem mem_itemPaths (x y : List FileItem) (i : ImportStmt) :
    (importEntry i).path ∈ itemPaths (x ++ .import_ i :: y) := by
  induction x with
  | nil => exact List.mem_cons_self
  | cons d x ih =>
    cases d with
    | import_ j => exact List.mem_cons_of_mem _ ih
    | named d sp => exact ih

theorem walkBody_insert (tokens tokens' : List Token) (i : ImportStmt) (a b : List BodyItem)
    (ns : Option String) {ms ms' : List (String × Message)}
    (hms : ms.map blankMessage = ms'.map blankMessage) :
    Agree (fun r r' => r.1.map blankMessage = r'.1.map blankMessage ∧
        Inserted (importEntry i) (bodyPaths a) r.2.1 r'.2.1 ∧ r.2.2 = r'.2.2)
      (walkBody tokens ns ms (a ++ b)) (walkBody tokens' ns ms' (a ++ .import_ i :: b)) := by
  induction a generalizing ns ms ms' with
  | nil =>
    rw [List.nil_append, List.nil_append, walkBody, ← bind_pure (walkBody tokens ns ms b)]
    refine Agree.bind (walkBody_agree _ _ (sameBody_refl b) ns hms) fun r r' hr => .pure ⟨hr.1, ?_, hr.2.2⟩
    exact ⟨[], r.2.1, [], r'.2.1, rfl, rfl, rfl, hr.2.1, fun _ h => nomatch h⟩
  | cons d a ih =>
    rw [List.cons_append, List.cons_append]
    cases d with
    | import_ j =>
      rw [walkBody, walkBody]
      exact Agree.bind (ih ns hms) fun r r' hr => .pure ⟨hr.1, hr.2.1.import_ _, hr.2.2⟩
    | named d sp =>
      rw [walkBody, walkBody]
      refine Agree.bind (walkNamed_agree _ _ ns (sameNamed_refl d)) fun s s' hs => ?_
      rw [← hs.2]
      refine Agree.bind (ih s.2 hms) fun r r' hr => .pure ⟨hr.1, hr.2.1.cons ?_, hr.2.2⟩
      show DeclItem.type _ _ _ = DeclItem.type _ _ _
      rw [hs.1]
    | message m =>
      rw [walkBody, walkBody]
      refine Agree.bind (walkMessage_agree _ _ ns (sameMessage_refl m)) fun nm nm' hnm => ih ns ?_
      have hnm : (nm.1, nm.2.blank) = (nm'.1, nm'.2.blank) := hnm
      injection hnm with h1 h2
      rw [← insertMessage_blank, ← insertMessage_blank, hms, h1, h2]

theorem walkItems_insert (tokens tokens' : List Token) (i : ImportStmt) (a b : List FileItem)
    (ns : Option String) :
    Agree (fun r r' => r.1.map Schema.blank = r'.1.map Schema.blank ∧
        Inserted (importEntry i) (itemPaths a) r.2.1 r'.2.1 ∧ r.2.2 = r'.2.2)
      (walkItems tokens ns (a ++ b)) (walkItems tokens' ns (a ++ .import_ i :: b)) := by
  induction a generalizing ns with
  | nil =>
    rw [List.nil_append, List.nil_append, walkItems, ← bind_pure (walkItems tokens ns b)]
    refine Agree.bind (walkItems_agree _ _ (sameItems_refl b) ns) fun r r' hr => .pure ⟨hr.1, ?_, hr.2.2⟩
    exact ⟨[], r.2.1, [], r'.2.1, rfl, rfl, rfl, hr.2.1, fun _ h => nomatch h⟩
  | cons d a ih =>
    rw [List.cons_append, List.cons_append]
    cases d with
    | import_ j =>
      rw [walkItems, walkItems]
      exact Agree.bind (ih ns) fun r r' hr => .pure ⟨hr.1, hr.2.1.import_ _, hr.2.2⟩
    | named d sp =>
      rw [walkItems, walkItems]
      refine Agree.bind (walkNamed_agree _ _ ns (sameNamed_refl d)) fun s s' hs => ?_
      rw [← hs.2]
      refine Agree.bind (ih s.2) fun r r' hr => .pure ⟨?_, hr.2.1.cons ?_, hr.2.2⟩
      · rw [List.map_cons, List.map_cons, hr.1, hs.1]
      · show DeclItem.type _ _ _ = DeclItem.type _ _ _
        rw [hs.1]

/-- The same file, and the same declarations up to repeated imports. -/
def SameFileRead (r r' : IdlFile × List DeclItem) : Prop :=
  r.1.blank = r'.1.blank ∧ essence r.2 = essence r'.2

omit [CharTables] [FloatTables] [CaseTables] in
theorem path_of_sameString {i i' : ImportStmt} (h : SameString i.location i'.location) :
    (importEntry i').path = (importEntry i).path := (sameString_read h).symm

theorem repeated_read (tokens tokens' : List Token) {ast ast' : FileAst} (h : Repeated ast ast') :
    Agree SameFileRead (walkFile tokens ast) (walkFile tokens' ast') := by
  cases h with
  | @protocol d x y z i i' hi =>
    rw [walkFile, walkFile, walkProtocol, walkProtocol]
    dsimp only
    refine Agree.bind (R := fun r r' => r.1.blank = r'.1.blank ∧ essence r.2 = essence r'.2) ?_
      fun r r' hr => .pure ⟨?_, hr.2⟩
    · refine Agree.bind (Agree.walkDoc _ _ _ _) fun doc doc' _ => ?_
      refine Agree.bind (sameHead_read protocolCtx rfl (.same (i := d.ident) (i' := d.ident) (sameAnnots_refl d.annots) rfl))
        fun p p' hp => ?_
      rw [← hp.ns, ← hp.props]
      refine Agree.bind (.failIf rfl _ _ _) fun _ _ _ => ?_
      refine Agree.bind (walkBody_insert _ _ i' (x ++ .import_ i :: y) z _ rfl)
        fun r r' hr => .pure ⟨?_, hr.2.1.essence ?_⟩
      · show Protocol.mk _ _ _ _ _ _ = Protocol.mk _ _ _ _ _ _
        dsimp only
        rw [hr.1, hr.2.2]
      · rw [path_of_sameString hi]
        exact mem_bodyPaths x y i
    · show IdlFile.protocol _ = IdlFile.protocol _
      rw [hr.1]
  | @schema ns main x y z i i' hi =>
    rw [walkFile, walkFile]
    refine Agree.bind (walkItems_insert _ _ i' (x ++ .import_ i :: y) z _) fun r r' hr => ?_
    have he := hr.2.1.essence (by rw [path_of_sameString hi]; exact mem_itemPaths x y i)
    cases main with
    | none =>
      refine .pure ⟨?_, he⟩
      show IdlFile.named _ = IdlFile.named _
      rw [hr.1]
    | some t =>
      dsimp only
      rw [hr.2.2]
      refine Agree.bind (sameType_read _ (sameType_refl .nullFirst t)) fun s s' hs => .pure ⟨?_, he⟩
      show IdlFile.schema _ = IdlFile.schema _
      rw [show s.blank = s'.blank from hs]

theorem equivalent_read (tokens tokens' : List Token) {ast ast' : FileAst} (h : Equivalent ast ast') :
    Agree SameFileRead (walkFile tokens ast) (walkFile tokens' ast') := by
  have hsymm : ∀ a b : IdlFile × List DeclItem, SameFileRead a b → SameFileRead b a :=
    fun _ _ h => ⟨h.1.symm, h.2.symm⟩
  have htrans : ∀ a b c : IdlFile × List DeclItem, SameFileRead a b → SameFileRead b c →
      SameFileRead a c := fun _ _ _ h h' => ⟨h.1.trans h'.1, h.2.trans h'.2⟩
  have himp : ∀ a b : IdlFile × List DeclItem, SameRead a b → SameFileRead a b :=
    fun _ _ h => ⟨h.1, essence_of_blank h.2⟩
  induction h generalizing tokens tokens' with
  | rel _ _ h =>
    rcases h with h | h
    · exact (sameTree_read _ _ h).imp himp
    · exact repeated_read _ _ h
  | refl ast => exact (sameTree_read _ _ (sameTree_refl ast)).imp himp
  | symm _ _ _ ih => exact (ih tokens' tokens).symm hsymm
  | trans _ _ _ _ _ ih ih' => exact (ih tokens tokens').trans htrans (ih' tokens' tokens')

end

end Avdl.Notations
