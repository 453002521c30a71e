import Verif.Lemmas.Blank
import Verif.Lemmas.Names
import Verif.Props.JsonValues
import Verif.Spec.Notations
/-!
# The reader and different notations

The reader makes the same of parse trees that say the same, up to positions, documentation and the
mark of optional types.
-/

namespace Avdl.Notations
open Spec Spec.Notations MuteReader Blank W

/-! ## Agreeing walks -/

/-- Results without effects that are related, or errors of the same kind. -/
inductive Alike {α β : Type} (R : α → β → Prop) : Except Fault α → Except Fault β → Prop
  | ok {a b} : R a b → Alike R (.ok a) (.ok b)
  | error {e e' : Fault} : e.err = e'.err → Alike R (.error e) (.error e')

/-- Related results and the same warnings, or errors of the same kind. -/
def Agree {α β : Type} (R : α → β → Prop) (m : W α) (m' : W β) : Prop :=
  ∀ l l' : Log, l.mute = l'.mute →
    Alike (fun x y => R x.1 y.1 ∧ x.2.mute = y.2.mute) (m l) (m' l')

theorem Alike.imp {α β : Type} {R S : α → β → Prop} (h : ∀ a b, R a b → S a b)
    {x : Except Fault α} {y : Except Fault β} (hx : Alike R x y) : Alike S x y := by
  cases hx with
  | ok h' => exact .ok (h _ _ h')
  | error e => exact .error e

theorem Agree.imp {α β : Type} {R S : α → β → Prop} (h : ∀ a b, R a b → S a b) {m : W α} {m' : W β}
    (hm : Agree R m m') : Agree S m m' :=
  fun l l' hl => (hm l l' hl).imp fun _ _ hx => ⟨h _ _ hx.1, hx.2⟩

theorem Agree.pure {α β : Type} {R : α → β → Prop} {a : α} {b : β} (h : R a b) :
    Agree R (W.pure a) (W.pure b) := fun _ _ hl => .ok ⟨h, hl⟩

theorem Agree.bind {α β γ δ : Type} {R : α → β → Prop} {S : γ → δ → Prop} {m : W α} {m' : W β}
    {k : α → W γ} {k' : β → W δ} (hm : Agree R m m') (hk : ∀ a b, R a b → Agree S (k a) (k' b)) :
    Agree S (W.bind m k) (W.bind m' k') := by
  intro l l' hl
  unfold W.bind
  have h := hm l l' hl
  revert h
  generalize m l = x
  generalize m' l' = y
  intro h
  cases h with
  | ok h => exact hk _ _ h.1 _ _ h.2
  | error e => exact .error e

theorem Agree.fail {α β : Type} {R : α → β → Prop} (e : ReadErr) (s s' : Option Span) :
    Agree R (W.fail e s) (W.fail e s') := fun _ _ _ => .error rfl

theorem Agree.lift {α β : Type} {R : α → β → Prop} {x : Except Fault α} {y : Except Fault β}
    (h : Alike R x y) : Agree R (W.lift x) (W.lift y) := by
  intro l l' hl
  cases h with
  | ok h => exact .ok ⟨h, hl⟩
  | error e => exact .error e

theorem Agree.failIf {b b' : Bool} (h : b = b') (e : ReadErr) (s s' : Option Span) :
    Agree (fun _ _ => True) (W.failIf b e s) (W.failIf b' e s') := by
  subst h
  cases b with
  | true => exact .fail _ _ _
  | false => exact .pure trivial

theorem Agree.warn {w w' : WalkWarning} (h : w.mute = w'.mute) :
    Agree (fun _ _ => True) (W.warn w) (W.warn w') := by
  intro l l' hl
  refine .ok ⟨trivial, ?_⟩
  have h' : l.warnings.map WalkWarning.mute = l'.warnings.map WalkWarning.mute :=
    congrArg Log.warnings hl
  unfold Log.mute
  dsimp only
  rw [List.map_append, List.map_append, h', List.map_cons, List.map_cons, h]

theorem Agree.walkDoc (tokens tokens' : List Token) (start start' : Nat) :
    Agree (fun _ _ => True) (walkDoc tokens start) (walkDoc tokens' start') := by
  have h : ∀ (tokens : List Token) (start : Nat) (l : Log), ∃ d l', Avdl.walkDoc tokens start l = .ok (d, l') ∧
      l'.mute = l.mute := by
    intro tokens start l
    unfold Avdl.walkDoc
    rcases extractDocComment tokens start with ⟨_ | i, doc⟩
    · exact ⟨_, _, rfl, rfl⟩
    · exact ⟨_, _, rfl, rfl⟩
  intro l l' hl
  obtain ⟨d, k, h1, h2⟩ := h tokens start l
  obtain ⟨d', k', h1', h2'⟩ := h tokens' start' l'
  rw [h1, h1']
  exact .ok ⟨trivial, by rw [h2, h2', hl]⟩

/-! ## Equivalences -/

theorem Alike.symm {α : Type} {R : α → α → Prop} (hR : ∀ a b, R a b → R b a)
    {x y : Except Fault α} (h : Alike R x y) : Alike R y x := by
  cases h with
  | ok h => exact .ok (hR _ _ h)
  | error e => exact .error e.symm

theorem Alike.trans {α : Type} {R : α → α → Prop} (hR : ∀ a b c, R a b → R b c → R a c)
    {x y z : Except Fault α} (h : Alike R x y) (h' : Alike R y z) : Alike R x z := by
  cases h with
  | ok h => cases h' with | ok h' => exact .ok (hR _ _ _ h h')
  | error e => cases h' with | error e' => exact .error (e.trans e')

theorem Agree.symm {α : Type} {R : α → α → Prop} (hR : ∀ a b, R a b → R b a) {m m' : W α}
    (h : Agree R m m') : Agree R m' m := fun l l' hl =>
  Alike.symm (fun _ _ hx => ⟨hR _ _ hx.1, hx.2.symm⟩) (h l' l hl.symm)

theorem Agree.trans {α : Type} {R : α → α → Prop} (hR : ∀ a b c, R a b → R b c → R a c)
    {m m' m'' : W α} (h : Agree R m m') (h' : Agree R m' m'') : Agree R m m'' := fun l l' hl =>
  Alike.trans (fun _ _ _ hx hy => ⟨hR _ _ _ hx.1 hy.1, hx.2.trans hy.2⟩) (h l l rfl) (h' l l' hl)

/-! ## JSON values -/

section
variable [FloatTables]

mutual
theorem walkJson_spelling : (v : JVal) → Alike Eq (walkJson v) (walkJson (spelling v))
  | .null | .true | .false | .str _ => .ok rfl
  | .int text span => by
      rw [spelling, walkJson, walkJson]
      cases parseIntegerLiteral text with
      | some i => exact .ok rfl
      | none => exact .error rfl
  | .float text span => by
      rw [spelling, walkJson, walkJson]
      cases parseFloatingPointLiteral text with
      | some i => exact .ok rfl
      | none => exact .error rfl
  | .arr l => by
      rw [spelling, walkJson, walkJson]
      have h := walkJsonList_spelling l
      revert h
      generalize walkJsonList l = x
      generalize walkJsonList (spellings l) = y
      intro h
      cases h with
      | ok h => subst h; exact .ok rfl
      | error h => exact .error h
  | .obj m => by
      rw [spelling, walkJson, walkJson]
      have h := walkJsonPairs_spelling m []
      revert h
      generalize walkJsonPairs [] m = x
      generalize walkJsonPairs [] (spellingPairs m) = y
      intro h
      cases h with
      | ok h => subst h; exact .ok rfl
      | error h => exact .error h
theorem walkJsonList_spelling : (l : List JVal) →
    Alike Eq (walkJsonList l) (walkJsonList (spellings l))
  | [] => .ok rfl
  | v :: vs => by
      rw [spellings, walkJsonList, walkJsonList]
      have h := walkJson_spelling v
      have h' := walkJsonList_spelling vs
      revert h h'
      generalize walkJson v = x
      generalize walkJson (spelling v) = y
      generalize walkJsonList vs = x'
      generalize walkJsonList (spellings vs) = y'
      intro h h'
      cases h with
      | error h => exact .error h
      | ok h =>
        subst h
        cases h' with
        | error h => exact .error h
        | ok h => subst h; exact .ok rfl
theorem walkJsonPairs_spelling : (m : List (String × JVal)) → (acc : JMap) →
    Alike Eq (walkJsonPairs acc m) (walkJsonPairs acc (spellingPairs m))
  | [], _ => .ok rfl
  | (k, v) :: ps, acc => by
      rw [spellingPairs, walkJsonPairs, walkJsonPairs]
      have h := walkJson_spelling v
      revert h
      generalize walkJson v = x
      generalize walkJson (spelling v) = y
      intro h
      cases h with
      | error h => exact .error h
      | ok h => subst h; exact walkJsonPairs_spelling ps _
end

theorem sameValue_read {v v' : JVal} (h : SameValue v v') : Alike Eq (walkJson v) (walkJson v') := by
  rcases h with h | ⟨j, h1, h2, h3, h4⟩
  · have h1 := walkJson_spelling v
    have h2 := walkJson_spelling v'
    rw [h] at h1
    exact Alike.trans (fun _ _ _ e e' => e.trans e') h1 (Alike.symm (fun _ _ e => e.symm) h2)
  · rw [Props.C41_json_accepted_partial h1 h3, Props.C41_json_accepted_partial h2 h4]
    exact .ok rfl

theorem says_read {a : Annot} {k : String} {j : Json} (h : Says a k j) : walkJson a.value = .ok j :=
  Props.C41_json_accepted_partial h.2.1 h.2.2

omit [FloatTables] in
theorem sameNumeral_read {t t' : String} (h : SameNumeral t t') :
    parseIntegerAsU32 t = parseIntegerAsU32 t' := by
  rcases h with rfl | ⟨n, n', mag, h, h'⟩
  · rfl
  · rw [Props.C18_u32_partial h, Props.C18_u32_partial h']

omit [FloatTables] in
theorem sameString_read {t t' : String} (h : SameString t t') :
    getStringFromLiteral t = getStringFromLiteral t' := by
  rcases h with rfl | ⟨s, h, h'⟩
  · rfl
  · rw [Props.string_means h, Props.string_means h']

omit [FloatTables] in
theorem plain_eq (s : String) : plain s = identifierText s := rfl

end

/-! ## Annotations -/

/-- The same annotations apart from the namespaces, which are given. -/
structure SameBut (n n' : Option String) (p p' : SchemaProps) : Prop where
  left : p.ns = n
  right : p'.ns = n'
  aliases : p.aliases = p'.aliases
  order : p.order = p'.order
  props : p.props = p'.props

theorem sameBut_self (p : SchemaProps) : SameBut p.ns p.ns p p := ⟨rfl, rfl, rfl, rfl, rfl⟩

theorem SameBut.eq {n : Option String} {p p' : SchemaProps} (h : SameBut n n p p') : p = p' := by
  obtain ⟨a, b, c, d⟩ := p
  obtain ⟨a', b', c', d'⟩ := p'
  obtain ⟨h1, h2, h3, h4, h5⟩ := h
  dsimp only at h1 h2 h3 h4 h5
  subst h1 h3 h4 h5
  rw [h2]

theorem bind_assoc {α β γ : Type} (m : W α) (f : α → W β) (g : β → W γ) :
    W.bind (W.bind m f) g = W.bind m fun a => W.bind (f a) g := by
  funext l
  unfold W.bind
  cases m l <;> rfl

section
variable [CharTables] [FloatTables] [CaseTables]

omit [FloatTables] [CaseTables] in
theorem walkAliases_agree (sp sp' : Option Span) (js : List Json) :
    Agree Eq (walkAliases sp js) (walkAliases sp' js) := by
  induction js with
  | nil => exact .pure rfl
  | cons j js ih =>
    cases j with
    | str s =>
      rw [walkAliases, walkAliases]
      refine Agree.bind (R := fun _ _ => True) ?_ fun _ _ _ => ?_
      · split
        · exact .pure trivial
        · exact .warn rfl
      · refine Agree.bind ih fun a b h => ?_
        subst h
        exact .pure rfl
    | _ => exact .fail _ _ _

omit [FloatTables] in
theorem annotStep_but (ctx : PropCtx) {n n' : Option String} {p p' : SchemaProps}
    (h : SameBut n n' p p') {name : String} (hn : name ≠ "namespace") (v : Json)
    (sp sp' : Option Span) :
    Agree (SameBut n n') (annotStep ctx p name v sp) (annotStep ctx p' name v sp') := by
  unfold annotStep
  have e : (ctx.withNamespace && name == "namespace") = false := by
    rw [beq_eq_false_iff_ne.mpr hn, Bool.and_false]
  rw [e, if_neg Bool.false_ne_true, if_neg Bool.false_ne_true]
  split
  · cases v with
    | arr l =>
      refine Agree.bind (walkAliases_agree _ _ _) fun a b hab => ?_
      subst hab
      exact .pure ⟨h.left, h.right, rfl, h.order, h.props⟩
    | _ => exact .fail _ _ _
  · split
    · cases parseOrderAnnot v with
      | some o => exact .pure ⟨h.left, h.right, h.aliases, rfl, h.props⟩
      | none => exact .fail _ _ _
    · split
      · exact .fail _ _ _
      · exact .pure ⟨h.left, h.right, h.aliases, h.order, by dsimp only; rw [h.props]⟩

omit [FloatTables] in
theorem annotStep_agree (ctx : PropCtx) (p : SchemaProps) (name : String) (v : Json)
    (sp sp' : Option Span) : Agree Eq (annotStep ctx p name v sp) (annotStep ctx p name v sp') := by
  by_cases hn : name = "namespace"
  · subst hn
    unfold annotStep
    split
    · cases v with
      | str s => exact .pure rfl
      | _ => exact .fail _ _ _
    · split
      · cases v with
        | arr l =>
          refine Agree.bind (walkAliases_agree _ _ _) fun a b hab => ?_
          subst hab
          exact .pure rfl
        | _ => exact .fail _ _ _
      · split
        · cases parseOrderAnnot v with
          | some o => exact .pure rfl
          | none => exact .fail _ _ _
        · split
          · exact .fail _ _ _
          · exact .pure rfl
  · exact (annotStep_but ctx (sameBut_self p) hn v sp sp').imp fun _ _ h => h.eq

theorem walkAnnots_agree (ctx : PropCtx) {as as' : List Annot} (h : SameAnnots as as')
    (p : SchemaProps) : Agree Eq (walkAnnots ctx p as) (walkAnnots ctx p as') := by
  induction h generalizing p with
  | nil => exact .pure rfl
  | @cons a a' as as' ha _ ih =>
    rw [walkAnnots, walkAnnots]
    refine Agree.bind (.lift (sameValue_read ha.2)) fun v v' hv => ?_
    subst hv
    rw [show identifierText a'.name = identifierText a.name from ha.1.symm]
    refine Agree.bind (annotStep_agree ctx p _ v _ _) fun q q' hq => ?_
    subst hq
    exact ih q

theorem walkAnnots_but (ctx : PropCtx) {n n' : Option String} {as : List Annot}
    (has : NoneCalled "namespace" as) {p p' : SchemaProps} (h : SameBut n n' p p') :
    Agree (SameBut n n') (walkAnnots ctx p as) (walkAnnots ctx p' as) := by
  induction as generalizing p p' with
  | nil => exact .pure h
  | cons a as ih =>
    rw [walkAnnots, walkAnnots]
    refine Agree.bind (.lift (sameValue_read (.inl rfl))) fun v v' hv => ?_
    subst hv
    refine Agree.bind (annotStep_but ctx h (has a (List.mem_cons_self ..)) v _ _) fun q q' hq => ?_
    exact ih (fun b hb => has b (List.mem_cons_of_mem _ hb)) hq

theorem walkAnnots_append (ctx : PropCtx) (x y : List Annot) (p : SchemaProps) :
    walkAnnots ctx p (x ++ y) = W.bind (walkAnnots ctx p x) fun q => walkAnnots ctx q y := by
  induction x generalizing p with
  | nil => rfl
  | cons a x ih =>
    rw [List.cons_append, walkAnnots, walkAnnots, bind_assoc]
    congr 1
    funext v
    rw [bind_assoc]
    congr 1
    funext q
    exact ih q

/-- The same annotations, namespace and name. -/
structure SameTop (i i' : String) (p p' : SchemaProps) : Prop where
  ns : computeNamespace (identifierText i) p.ns = computeNamespace (identifierText i') p'.ns
  name : extractName (identifierText i) = extractName (identifierText i')
  aliases : p.aliases = p'.aliases
  props : p.props = p'.props

theorem sameHead_read (ctx : PropCtx) (hctx : ctx.withNamespace = true) {as as' : List Annot}
    {i i' : String} (h : SameHead as i as' i') :
    Agree (SameTop i i') (walkAnnots ctx {} as) (walkAnnots ctx {} as') := by
  cases h with
  | same ha hi =>
    refine (walkAnnots_agree ctx ha {}).imp fun p p' e => ?_
    subst e
    have hi : identifierText i = identifierText i' := hi
    exact ⟨by rw [hi], by rw [hi], rfl, rfl⟩
  | @dotted x y a ns _ _ ha hx hy hi hi' =>
    rw [walkAnnots_append, walkAnnots_append]
    refine Agree.bind (walkAnnots_but ctx hx (sameBut_self {})) fun p p' hp => ?_
    rw [walkAnnots, says_read ha]
    have e : annotStep ctx p (identifierText a.name) (.str ns) a.span =
        W.pure { p with ns := some ns } := by
      unfold annotStep
      rw [show identifierText a.name = "namespace" from ha.1, hctx]
      rfl
    show Agree _ (W.bind (annotStep ctx p (identifierText a.name) (.str ns) a.span) _) _
    rw [e]
    show Agree _ (walkAnnots ctx { p with ns := some ns } y) _
    refine (walkAnnots_but ctx (n := some ns) (n' := none) hy (p := { p with ns := some ns })
      ⟨rfl, hp.right, hp.aliases, hp.order, hp.props⟩).imp fun q q' hq => ?_
    have hi : '.' ∉ (identifierText i).toList := hi
    have hi' : identifierText i' = ns ++ "." ++ identifierText i := hi'
    have e1 : splitFullName (identifierText i) = (identifierText i, none) := by
      unfold splitFullName
      rw [(rsplitDot_none_iff _).mpr hi]
    have e2 : splitFullName (identifierText i') = (identifierText i, some ns) := by
      unfold splitFullName
      rw [hi', String.toList_append, String.toList_append, List.append_assoc]
      rw [show ".".toList ++ (identifierText i).toList = '.' :: (identifierText i).toList from rfl,
        rsplitDot_append hi]
      dsimp only
      rw [String.ofList_toList, String.ofList_toList]
    refine ⟨?_, ?_, hq.aliases, hq.props⟩
    · unfold computeNamespace
      rw [e1, e2]
      exact hq.left
    · unfold extractName
      rw [e1, e2]

end

/-! ## Schemas up to the mark of optional types -/

mutual
theorem blank_twice : (s : Schema) → s.blank.blank = s.blank
  | .prim _ | .enum .. | .fixed .. | .annotated .. | .logical .. | .ref .. => rfl
  | .record n ns d fs e al ps => by
      rw [Schema.blank, Schema.blank, blankFields_twice fs]
  | .array i ps => by rw [Schema.blank, Schema.blank, blank_twice i]
  | .map i ps => by rw [Schema.blank, Schema.blank, blank_twice i]
  | .union ts b => by rw [Schema.blank, Schema.blank, blankSchemas_twice ts]
theorem blankFields_twice : (fs : List Field) → blankFields (blankFields fs) = blankFields fs
  | [] => rfl
  | .mk n s d df o al ps :: fs => by
      rw [blankFields, blankFields, blank_twice s, blankFields_twice fs]
theorem blankSchemas_twice : (ss : List Schema) → blankSchemas (blankSchemas ss) = blankSchemas ss
  | [] => rfl
  | s :: ss => by
      rw [blankSchemas, blankSchemas, blank_twice s, blankSchemas_twice ss]
end

/-- A schema without positions, documentation and marks of optional types, except its own. -/
def half : Schema → Schema
  | .union ts b => .union (blankSchemas ts) b
  | s => s.blank

theorem blank_half (s : Schema) : (half s).blank = s.blank := by
  cases s with
  | union ts b => rw [half, Schema.blank, Schema.blank, blankSchemas_twice]
  | _ => exact blank_twice _

theorem withMergedProps_blank (s : Schema) (ps : Props) :
    s.blank.withMergedProps ps = (s.withMergedProps ps).blank := by
  cases s <;> simp [Schema.blank, Schema.withMergedProps]

theorem tryPromote_blank (s : Schema) : tryPromote s.blank = (tryPromote s).blank := by
  cases s with
  | annotated k ps =>
    rw [Schema.blank, tryPromote]
    split
    · split
      · rfl
      · split <;> rfl
    · rfl
  | _ => simp [Schema.blank, tryPromote]

theorem applyToSchema_blank (s : Schema) (ps : Props) :
    (applyToSchema s ps).blank = applyToSchema s.blank ps := by
  rw [applyToSchema, applyToSchema, withMergedProps_blank, tryPromote_blank]

theorem applyToSchema_union (ts : List Schema) (b : Bool) (ps : Props) :
    applyToSchema (.union ts b) ps = .union ts b := rfl

theorem half_of_blank {s : Schema} (h : s.isUnion = false) : half s = s.blank := by
  cases s with
  | union => cases h
  | _ => rfl

theorem tryPromote_isUnion (s : Schema) : (tryPromote s).isUnion = s.isUnion := by
  cases s with
  | annotated k ps =>
    rw [tryPromote]
    split
    · split
      · rfl
      · split <;> rfl
    · rfl
  | _ => rfl

theorem applyToSchema_isUnion (s : Schema) (ps : Props) :
    (applyToSchema s ps).isUnion = s.isUnion := by
  rw [applyToSchema, tryPromote_isUnion]
  cases s <;> rfl

theorem applyProps_half (s : Schema) (ps : Props) :
    half (applyProps s ps) = half (applyProps (half s) ps) := by
  by_cases hu : s.isUnion = true
  · cases s with
    | union ts b =>
      rcases ts with _ | ⟨a, _ | ⟨c, _ | ⟨d, ts⟩⟩⟩ <;> cases b
      case cons.cons.nil.true =>
        show half (if a.isNull then _ else _) =
          half (if a.blank.isNull then .union [a.blank, applyToSchema c.blank ps] true
            else .union [applyToSchema a.blank ps, c.blank] true)
        rw [isNull_blank]
        split
        · show Schema.union _ _ = Schema.union _ _
          simp only [blankSchemas, blank_twice, applyToSchema_blank]
        · show Schema.union _ _ = Schema.union _ _
          simp only [blankSchemas, blank_twice, applyToSchema_blank]
      all_goals
        simp only [half, blankSchemas, applyProps, applyToSchema_union, blank_twice,
          blankSchemas_twice]
    | _ => cases hu
  · have hu : s.isUnion = false := by simpa using hu
    have e : ∀ t : Schema, t.isUnion = false → applyProps t ps = applyToSchema t ps := by
      intro t ht
      cases t with
      | union => cases ht
      | _ => rfl
    have hb : s.blank.isUnion = false := by rw [isUnion_blank, hu]
    rw [half_of_blank hu, e s hu, e _ hb, half_of_blank (by rw [applyToSchema_isUnion, hu]),
      half_of_blank (by rw [applyToSchema_isUnion, hb]), applyToSchema_blank, applyToSchema_blank,
      blank_twice]

theorem isTypeReference_half (s : Schema) : isTypeReference (half s) = isTypeReference s := by
  cases s with
  | union ts b =>
    cases b with
    | false => rfl
    | true =>
      show List.any (blankSchemas ts) _ = List.any ts _
      rw [blankSchemas_map, List.any_map]
      congr 1
      funext t
      cases t <;> rfl
  | _ => rfl

theorem isNonNullableUnion_half (s : Schema) : isNonNullableUnion (half s) = isNonNullableUnion s := by
  cases s with
  | union ts b =>
    show (!(b && (blankSchemas ts).length == 2)) = (!(b && ts.length == 2))
    rw [blankSchemas_map, List.length_map]
  | _ => rfl

theorem fixOptional_half (s : Schema) (d : Option Json) :
    (fixOptional s d).blank = (fixOptional (half s) d).blank := by
  cases s with
  | union ts b =>
    rcases ts with _ | ⟨a, _ | ⟨c, _ | ⟨e, ts⟩⟩⟩ <;> cases b
    case cons.cons.nil.true =>
      cases d with
      | none => simp only [half, fixOptional, Schema.blank, blankSchemas, blank_twice]
      | some j =>
        cases j <;> simp only [half, fixOptional, Schema.blank, blankSchemas, blank_twice]
    all_goals
      simp only [half, fixOptional, Schema.blank, blankSchemas, blank_twice, blankSchemas_twice]
  | _ => exact (blank_twice _).symm

/-- Schemas that amount to the same at a place. -/
def Fit : Place → Schema → Schema → Prop
  | .exact, s, s' => half s = half s'
  | .nullFirst, s, s' => s.blank = s'.blank
  | .nullLast, s, s' => ∀ j, j ≠ .null → (fixOptional s (some j)).blank = (fixOptional s' (some j)).blank

theorem blank_of_half {s s' : Schema} (h : half s = half s') : s.blank = s'.blank := by
  rw [← blank_half, h, blank_half]

theorem fixOptional_of_half {s s' : Schema} (h : half s = half s') (d : Option Json) :
    (fixOptional s d).blank = (fixOptional s' d).blank := by
  rw [fixOptional_half, h, ← fixOptional_half]

theorem fit_of_exact {s s' : Schema} (h : half s = half s') (pl : Place) : Fit pl s s' := by
  cases pl with
  | exact => exact h
  | nullFirst => exact blank_of_half h
  | nullLast => exact fun j _ => fixOptional_of_half h _

/-! ## Types -/

theorem refTo_half {i i' : String} (h : i = i') (sp sp' : Option Span) (ns : Option String) :
    half (refTo i sp ns) = half (refTo i' sp' ns) := by
  subst h
  unfold refTo
  split <;> rfl

theorem wrapOptional_agree (b : Bool) (sp sp' : Option Span) {s s' : Schema}
    (h : half s = half s') (hu : s.isUnion = false) (hu' : s'.isUnion = false) :
    Alike (Fit .exact) (wrapOptional b sp s) (wrapOptional b sp' s') := by
  cases b with
  | false => exact .ok h
  | true =>
    have e := blank_of_half h
    have hn : s.isNull = s'.isNull := by rw [← isNull_blank, e, isNull_blank]
    have e1 : ∀ (sp : Option Span) (t : Schema), wrapOptional true sp t =
        if t.isNull then .error ⟨.nullableNull, sp⟩ else .ok (.union [.prim .null, t] true) := by
      intro sp t
      cases t with
      | prim p => cases p <;> rfl
      | _ => rfl
    rw [e1, e1, hn]
    split
    · exact .error rfl
    · refine .ok ?_
      show Schema.union _ _ = Schema.union _ _
      simp only [blankSchemas, e]

/-- The scale of a decimal type. -/
def scaleOf : Option (String × Option Span) → Option Nat
  | none => some 0
  | some (t, _) => parseIntegerAsU32 t

theorem walkPrim_decimal (x : String) (sp : Option Span) (y : Option (String × Option Span)) :
    walkPrim (.decimal x sp y) =
      match parseIntegerAsU32 x with
      | none => .error ⟨.badPrecision, sp⟩
      | some precision =>
        if precision = 0 then .error ⟨.badPrecision, sp⟩
        else match scaleOf y with
          | none => .error ⟨.badScale, y.bind Prod.snd⟩
          | some scale =>
            if precision < scale then .error ⟨.badScale, y.bind Prod.snd⟩
            else .ok (.logical (.decimal precision scale) []) := by
  cases y <;> rfl

theorem walkPrim_agree {p p' : PrimTok} (h : SameKeyword p p') :
    Alike Eq (walkPrim p) (walkPrim p') := by
  have key : ∀ (x x' : String) (sp sp' : Option Span) (y y' : Option (String × Option Span)),
      parseIntegerAsU32 x = parseIntegerAsU32 x' → scaleOf y = scaleOf y' →
      Alike Eq (walkPrim (.decimal x sp y)) (walkPrim (.decimal x' sp' y')) := by
    intro x x' sp sp' y y' hx hy
    rw [walkPrim_decimal, walkPrim_decimal, hx, hy]
    cases parseIntegerAsU32 x' with
    | none => exact .error rfl
    | some n =>
      dsimp only
      split
      · exact .error rfl
      · cases scaleOf y' with
        | none => exact .error rfl
        | some m =>
          dsimp only
          split
          · exact .error rfl
          · exact .ok rfl
  cases h with
  | same =>
    cases walkPrim p with
    | ok => exact .ok rfl
    | error => exact .error rfl
  | decimal hp hs => exact key _ _ _ _ _ _ (sameNumeral_read hp) (sameNumeral_read hs)
  | integer hp => exact key _ _ _ _ _ _ (sameNumeral_read hp) rfl
  | noScale hz =>
    refine key _ _ _ _ _ _ rfl ?_
    show some 0 = parseIntegerAsU32 _
    rw [Props.C18_u32_partial hz]
    rfl

/-- A schema that can be a member of a union with `null`. -/
def Single (s : Schema) : Prop := s.isUnion = false ∧ s.unionKey ≠ "null"

theorem walkPrim_union {p : PrimTok} {s : Schema} (h : walkPrim p = .ok s) : s.isUnion = false := by
  cases p with
  | decimal x sp y =>
    unfold walkPrim at h
    dsimp only at h
    split at h
    · cases h
    · split at h
      · cases h
      · split at h
        · cases h
        · split at h
          · cases h
          · cases h; rfl
  | _ => cases h; rfl

theorem walkPrim_single {p : PrimTok} {s : Schema} (h : walkPrim p = .ok s) (hp : p ≠ .prim .null) :
    Single s := by
  cases p with
  | decimal x sp y =>
    unfold walkPrim at h
    dsimp only at h
    split at h
    · cases h
    · split at h
      · cases h
      · split at h
        · cases h
        · split at h
          · cases h
          · cases h; exact ⟨rfl, (by decide : "bytes" ≠ "null")⟩
  | prim q =>
    cases h
    refine ⟨rfl, ?_⟩
    cases q with
    | null => exact absurd rfl hp
    | _ => decide
  | _ => cases h; exact ⟨rfl, by decide⟩

theorem makeFullName_null {n : String} {ns : Option String} (h : makeFullName n ns = "null") :
    n = "null" := by
  cases ns with
  | none => exact h
  | some ns =>
    unfold makeFullName at h
    dsimp only at h
    split at h
    · exact h
    · have h1 : '.' ∈ (ns ++ "." ++ n).toList := by
        rw [String.toList_append, String.toList_append]
        exact List.mem_append.mpr (.inl (List.mem_append.mpr (.inr (List.mem_singleton.mpr rfl))))
      rw [h] at h1
      exact absurd h1 (by decide)

theorem refTo_single {i : String} (h : ¬ CalledNull i) (sp : Option Span) (ns : Option String) :
    Single (refTo (identifierText i) sp ns) := by
  have hn : (identifierText i).toList ≠ "null".toList := fun e => h (.inl e)
  have hn' : ∀ x, (identifierText i).toList ≠ x ++ ".null".toList := fun x e => h (.inr ⟨x, e⟩)
  unfold refTo
  unfold splitFullName
  cases hr : rsplitDot (identifierText i).toList with
  | none =>
    refine ⟨rfl, fun e => hn ?_⟩
    rw [makeFullName_null e]
  | some ab =>
    obtain ⟨a, b⟩ := ab
    refine ⟨rfl, fun e => ?_⟩
    have e1 := makeFullName_null (n := String.ofList b) (ns := some (String.ofList a)) e
    have e2 : b = "null".toList := by rw [← e1, String.toList_ofList]
    have e3 := (rsplitDot_some hr).1
    rw [e2] at e3
    exact hn' a e3

theorem firstUnion_agree {ss ss' : List Schema} (h : ss.map Schema.isUnion = ss'.map Schema.isUnion) :
    ∀ spans spans', (firstUnion ss spans).isSome = (firstUnion ss' spans').isSome := by
  induction ss generalizing ss' with
  | nil =>
    cases ss' with
    | nil => intro _ _; rfl
    | cons => cases h
  | cons s ss ih =>
    cases ss' with
    | nil => cases h
    | cons s' ss' =>
      intro spans spans'
      rw [List.map_cons, List.map_cons] at h
      injection h with h1 h2
      rw [firstUnion, firstUnion, h1]
      split
      · rfl
      · exact ih h2 _ _

theorem firstDuplicate_agree (ks : List String) : ∀ (seen : List String) (spans spans' : List (Option Span)),
    (firstDuplicate seen ks spans).map Prod.fst = (firstDuplicate seen ks spans').map Prod.fst := by
  induction ks with
  | nil => intro _ _ _; rfl
  | cons k ks ih =>
    intro seen spans spans'
    rw [firstDuplicate, firstDuplicate]
    split
    · rfl
    · exact ih _ _ _

theorem checkUnion_agree {ss ss' : List Schema} (h : ss.map Schema.blank = ss'.map Schema.blank)
    (spans spans' : List (Option Span)) :
    Alike (Fit .exact) (checkUnion ss spans) (checkUnion ss' spans') := by
  have h1 : ss.map Schema.isUnion = ss'.map Schema.isUnion := by
    have := congrArg (List.map Schema.isUnion) h
    rw [List.map_map, List.map_map] at this
    rwa [show Schema.isUnion ∘ Schema.blank = Schema.isUnion from funext isUnion_blank] at this
  have h2 : ss.map Schema.unionKey = ss'.map Schema.unionKey := by
    have := congrArg (List.map Schema.unionKey) h
    rw [List.map_map, List.map_map] at this
    rwa [show Schema.unionKey ∘ Schema.blank = Schema.unionKey from funext unionKey_blank] at this
  unfold checkUnion
  have e1 := firstUnion_agree h1 spans spans'
  revert e1
  generalize firstUnion ss spans = x
  generalize firstUnion ss' spans' = y
  intro e1
  cases x with
  | some a =>
    cases y with
    | some b => exact .error rfl
    | none => cases e1
  | none =>
    cases y with
    | some b => cases e1
    | none =>
      dsimp only
      rw [h2]
      have e2 := firstDuplicate_agree (ss'.map Schema.unionKey) [] spans spans'
      revert e2
      generalize firstDuplicate [] (ss'.map Schema.unionKey) spans = x
      generalize firstDuplicate [] (ss'.map Schema.unionKey) spans' = y
      intro e2
      cases x with
      | some a =>
        cases y with
        | some b =>
          injection e2 with e2
          refine .error ?_
          dsimp only
          rw [e2]
        | none => cases e2
      | none =>
        cases y with
        | some b => cases e2
        | none =>
          refine .ok ?_
          show Schema.union _ _ = Schema.union _ _
          rw [blankSchemas_map, blankSchemas_map, h]

theorem finishFullType_agree (ps : Props) (sp sp' : Option Span) {s s' : Schema}
    (h : half s = half s') :
    Agree (Fit .exact) (finishFullType ps sp s) (finishFullType ps sp' s') := by
  unfold finishFullType
  rw [← isTypeReference_half s, h, isTypeReference_half, ← isNonNullableUnion_half s, h,
    isNonNullableUnion_half]
  split
  · exact .pure h
  · split
    · exact .fail _ _ _
    · refine Agree.bind (R := fun _ _ => True) ?_ fun _ _ _ => .pure ?_
      · split
        · exact .warn rfl
        · exact .pure trivial
      · show half _ = half _
        rw [applyProps_half, h, ← applyProps_half]

/-! ## Keywords of logical types -/

theorem props_insert_pre {pre q : Props} {k : String} (h : k ∉ pre.map Prod.fst) (v : Json) :
    Props.insert (pre ++ q) k v = pre ++ Props.insert q k v := by
  unfold Props.insert Props.erase
  rw [List.filter_append, List.append_assoc, List.filter_eq_self.mpr]
  intro kv hkv
  refine decide_eq_true fun e => h ?_
  rw [← e]
  exact List.mem_map_of_mem hkv

theorem props_erase_not {q : Props} {k : String} (h : k ∉ q.map Prod.fst) : Props.erase q k = q := by
  unfold Props.erase
  refine List.filter_eq_self.mpr fun kv hkv => decide_eq_true fun e => h ?_
  rw [← e]
  exact List.mem_map_of_mem hkv

theorem props_extend_append (p q : Props) (h : ((p ++ q).map Prod.fst).Nodup) :
    Props.extend p q = p ++ q := by
  induction q generalizing p with
  | nil => exact (List.append_nil p).symm
  | cons kv q ih =>
    have h' : ((p ++ [kv] ++ q).map Prod.fst).Nodup := by
      rwa [List.append_assoc, List.singleton_append]
    show Props.extend (Props.insert p kv.1 kv.2) q = _
    have e : Props.insert p kv.1 kv.2 = p ++ [kv] := by
      unfold Props.insert
      rw [props_erase_not]
      intro hk
      rw [List.map_append, List.nodup_append] at h
      exact h.2.2 _ hk _ (List.mem_map_of_mem List.mem_cons_self) rfl
    rw [e, ih _ h', List.append_assoc, List.singleton_append]

theorem props_get_not {q : Props} {k : String} (h : k ∉ q.map Prod.fst) : Props.get? q k = none :=
  JMap.get?_none_of_forall fun x hx e => h (e ▸ List.mem_map_of_mem hx)

section
variable [CharTables] [FloatTables] [CaseTables]

/-- Annotations of a type, one with some more properties in front. -/
structure More (pre : Props) (p p' : SchemaProps) : Prop where
  props : p'.props = pre ++ p.props
  wf : p.props.Wf
  apart : ∀ k ∈ pre.map Prod.fst, k ∉ p.props.map Prod.fst

theorem walkAnnots_more (pre : Props) {as : List Annot}
    (h : ∀ k ∈ pre.map Prod.fst, NoneCalled k as) {p p' : SchemaProps} (hp : More pre p p') :
    Agree (More pre) (walkAnnots bareCtx p as) (walkAnnots bareCtx p' as) := by
  induction as generalizing p p' with
  | nil => exact .pure hp
  | cons a as ih =>
    rw [walkAnnots, walkAnnots]
    refine Agree.bind (R := Eq) (.lift ?_) fun v v' hv => ?_
    · cases walkJson a.value with
      | ok => exact .ok rfl
      | error => exact .error rfl
    subst hv
    refine Agree.bind (R := More pre) ?_ fun q q' hq =>
      ih (fun k hk b hb => h k hk b (List.mem_cons_of_mem _ hb)) hq
    have e : ∀ acc : SchemaProps, annotStep bareCtx acc (identifierText a.name) v a.span =
        if schemaReserved.contains (identifierText a.name) then
          fail (.reservedProperty (identifierText a.name)) a.span
        else W.pure { acc with props := acc.props.insert (identifierText a.name) v } :=
      fun _ => rfl
    rw [e, e]
    split
    · exact .fail _ _ _
    · have hk : identifierText a.name ∉ pre.map Prod.fst := fun hk =>
        h _ hk a List.mem_cons_self rfl
      refine .pure ⟨?_, hp.wf.insert _ _, fun k hk' hk'' => ?_⟩
      · dsimp only
        rw [hp.props, props_insert_pre hk]
      · dsimp only at hk''
        unfold Props.insert Props.erase at hk''
        rw [List.map_append, List.mem_append] at hk''
        rcases hk'' with hk'' | hk''
        · obtain ⟨kv, hkv, rfl⟩ := List.mem_map.mp hk''
          exact hp.apart _ hk' (List.mem_map_of_mem (List.mem_of_mem_filter hkv))
        · rw [List.map_cons, List.map_nil, List.mem_singleton] at hk''
          subst hk''
          exact hk hk'

omit [CharTables] [FloatTables] [CaseTables] in
/-- A type with or without `?`. -/
def withMark : Bool → Schema → Schema
  | true, s => .union [.prim .null, s] true
  | false, s => s

omit [CharTables] [FloatTables] [CaseTables] in
theorem finish_logical (lt : LogicalType) {ps : Props} (hw : ps.Wf) (optional : Bool)
    (sp : Option Span) : finishFullType ps sp (withMark optional (.logical lt [])) =
      W.pure (withMark optional (.logical lt ps)) := by
  unfold finishFullType
  cases ps with
  | nil => rfl
  | cons kv ps =>
    have e : Props.extend [] (kv :: ps) = kv :: ps := props_extend_append [] _ hw
    cases optional with
    | true =>
      show W.bind (W.pure ()) (fun _ => W.pure (Schema.union [.prim .null, .logical lt
        (Props.extend [] (kv :: ps))] true)) = _
      rw [e]
      rfl
    | false =>
      show W.bind (W.pure ()) (fun _ => W.pure (Schema.logical lt
        (Props.extend [] (kv :: ps)))) = _
      rw [e]
      rfl

omit [CharTables] [FloatTables] [CaseTables] in
theorem finish_promoted {base : Prim} {lt : LogicalType} {ps ps' : Props} (hps : ps' ≠ [])
    (h : tryPromote (.annotated base ps') = .logical lt ps) (optional : Bool) (sp : Option Span) :
    finishFullType ps' sp (withMark optional (.prim base)) =
      W.pure (withMark optional (.logical lt ps)) := by
  unfold finishFullType
  cases ps' with
  | nil => exact absurd rfl hps
  | cons kv ps' =>
    cases optional with
    | true =>
      show W.bind (W.pure ()) (fun _ => W.pure (Schema.union [.prim .null,
        tryPromote (.annotated base (kv :: ps'))] true)) = _
      rw [h]
      rfl
    | false =>
      show W.bind (W.pure ()) (fun _ => W.pure (tryPromote (.annotated base (kv :: ps')))) = _
      rw [h]
      rfl

omit [CharTables] [FloatTables] [CaseTables] in
theorem wrapOptional_mark {s : Schema} (h : Single s) (optional : Bool) (sp : Option Span) :
    wrapOptional optional sp s = .ok (withMark optional s) := by
  cases optional with
  | false => rfl
  | true =>
    cases s with
    | prim p =>
      cases p with
      | null => exact absurd rfl h.2
      | _ => rfl
    | _ => rfl

/-- A keyword and the type that it stands for, with the annotations that make up the difference. -/
theorem logical_agree (ns : Option String) {k : PrimTok} {lt : LogicalType} {base : Prim}
    {pre : Props} (hk : walkPrim k = .ok (.logical lt [])) (hb : base ≠ .null) (hpre : pre ≠ [])
    (hpro : ∀ ps : Props, (∀ k ∈ pre.map Prod.fst, k ∉ ps.map Prod.fst) →
      tryPromote (.annotated base (pre ++ ps)) = .logical lt ps)
    {as : List Annot} (has : ∀ k ∈ pre.map Prod.fst, NoneCalled k as) (optional : Bool)
    (sp sp' sp'' sp''' : Option Span) :
    Agree Eq (walkFullType ns (.mk as (.prim k optional sp) sp'))
      (W.bind (walkAnnots bareCtx { props := pre } as) fun p =>
        W.bind (walkPlainType ns (.prim (.prim base) optional sp'')) fun s =>
          finishFullType p.props sp''' s) := by
  rw [walkFullType]
  refine Agree.bind (walkAnnots_more pre has ⟨(List.append_nil pre).symm, List.nodup_nil,
    fun _ _ h => nomatch h⟩) fun p p' hp => ?_
  have hs1 : Single (.logical lt []) := by
    refine ⟨rfl, ?_⟩
    have : ∀ b : Prim, b ≠ .null → b.asStr ≠ "null" := by
      intro b hb
      cases b with
      | null => exact absurd rfl hb
      | _ => decide
    refine this lt.base ?_
    cases lt <;> exact Prim.noConfusion
  have hs2 : Single (.prim base) := by
    refine ⟨rfl, ?_⟩
    cases base with
    | null => exact absurd rfl hb
    | _ => decide
  have e1 : W.bind (walkPlainType ns (.prim k optional sp)) (fun s => finishFullType p.props sp' s) =
      finishFullType p.props sp' (withMark optional (.logical lt [])) := by
    rw [walkPlainType, hk]
    show W.bind (W.lift (wrapOptional optional sp (.logical lt []))) _ = _
    rw [wrapOptional_mark hs1]
    rfl
  have e2 : W.bind (walkPlainType ns (.prim (.prim base) optional sp''))
      (fun s => finishFullType p'.props sp''' s) =
      finishFullType p'.props sp''' (withMark optional (.prim base)) := by
    rw [walkPlainType]
    show W.bind (W.lift (wrapOptional optional sp'' (.prim base))) _ = _
    rw [wrapOptional_mark hs2]
    rfl
  rw [e1, e2, finish_logical lt hp.wf, finish_promoted (lt := lt) (ps := p.props) _ _]
  · exact .pure rfl
  · rw [hp.props]
    exact fun e => hpre (List.append_eq_nil_iff.mp e).1
  · rw [hp.props]
    exact hpro _ hp.apart

theorem walkAnnots_says (acc : SchemaProps) {a : Annot} {name : String} {j : Json}
    (h : Says a name j) (hr : schemaReserved.contains name = false) (as : List Annot) :
    walkAnnots bareCtx acc (a :: as) =
      walkAnnots bareCtx { acc with props := acc.props.insert name j } as := by
  rw [walkAnnots, says_read h, show identifierText a.name = name from h.1]
  show W.bind (annotStep bareCtx acc name j a.span) _ = _
  have e : annotStep bareCtx acc name j a.span =
      W.pure { acc with props := acc.props.insert name j } := by
    show (if schemaReserved.contains name then _ else _) = _
    rw [hr]
    rfl
  rw [e]
  rfl

omit [CharTables] [FloatTables] [CaseTables] in
theorem keyword_facts {k : PrimTok} {l : String} {base : Prim} (h : (k, l, base) ∈ logicalKeywords) :
    ∃ lt, walkPrim k = .ok (.logical lt []) ∧ base ≠ .null ∧
      (∀ p s, parseLogicalType l p s = some lt) ∧ lt.base = base ∧
      ∀ ps, consumedProps lt ps = ps.erase "logicalType" := by
  unfold logicalKeywords at h
  simp only [List.mem_cons, List.not_mem_nil, or_false, Prod.mk.injEq] at h
  rcases h with ⟨rfl, rfl, rfl⟩ | ⟨rfl, rfl, rfl⟩ | ⟨rfl, rfl, rfl⟩ | ⟨rfl, rfl, rfl⟩ | ⟨rfl, rfl, rfl⟩
  all_goals exact ⟨_, rfl, by decide, fun _ _ => rfl, rfl, fun _ => rfl⟩

theorem keyword_agree (ns : Option String) {k : PrimTok} {l : String} {base : Prim}
    (h : (k, l, base) ∈ logicalKeywords) {a : Annot} {as : List Annot}
    (ha : Says a "logicalType" (.str l)) (has : NoneCalled "logicalType" as) (optional : Bool)
    (sp sp' sp'' sp''' : Option Span) :
    Agree Eq (walkFullType ns (.mk as (.prim k optional sp) sp'))
      (walkFullType ns (.mk (a :: as) (.prim (.prim base) optional sp'') sp''')) := by
  obtain ⟨lt, h1, h2, h3, h4, h5⟩ := keyword_facts h
  rw [walkFullType.eq_1 ns (a :: as), walkAnnots_says _ ha (by decide)]
  refine logical_agree ns (pre := [("logicalType", .str l)]) h1 h2 (List.cons_ne_nil _ _) ?_ ?_
    optional sp sp' sp'' sp'''
  · intro ps hps
    have hl : "logicalType" ∉ ps.map Prod.fst := hps _ (List.mem_singleton.mpr rfl)
    have e : Props.get? ([("logicalType", Json.str l)] ++ ps) "logicalType" = some (.str l) := rfl
    rw [tryPromote, e]
    dsimp only
    rw [h3]
    dsimp only
    rw [if_neg (not_not.mpr h4), h5]
    show Schema.logical lt (Props.erase ps "logicalType") = _
    rw [props_erase_not hl]
  · intro k hk
    rw [List.map_cons, List.map_nil, List.mem_singleton] at hk
    subst hk
    exact has

omit [CharTables] [FloatTables] [CaseTables] in
theorem decimal_props (x y z : Json) : Props.insert (Props.insert (Props.insert [] "logicalType" x)
    "precision" y) "scale" z = [("logicalType", x), ("precision", y), ("scale", z)] := by
  simp [Props.insert, Props.erase]

omit [CharTables] [FloatTables] [CaseTables] in
theorem decimal_get (x y z : Json) (q : Props) :
    Props.get? (("logicalType", x) :: ("precision", y) :: ("scale", z) :: q) "logicalType" = some x ∧
    Props.get? (("logicalType", x) :: ("precision", y) :: ("scale", z) :: q) "precision" = some y ∧
    Props.get? (("logicalType", x) :: ("precision", y) :: ("scale", z) :: q) "scale" = some z := by
  simp [Props.get?, JMap.get?]

omit [CharTables] [FloatTables] [CaseTables] in
theorem decimal_rest (x y z : Json) (q : Props) :
    ((Props.erase (("logicalType", x) :: ("precision", y) :: ("scale", z) :: q)
        "logicalType").erase "precision").erase "scale" =
      ((Props.erase q "logicalType").erase "precision").erase "scale" := by
  simp [Props.erase]

omit [CharTables] [FloatTables] [CaseTables] in
theorem asJavaInt_some {v : Option Json} {m : Nat} (hm : m < 2 ^ 31)
    (e : v.bind jsonValueAsU32 = some m) : asJavaInt v = some m := by
  unfold asJavaInt
  split
  · rename_i n h
    rw [e] at h
    injection h with h
    subst h
    split
    · rfl
    · omega
  · rename_i h
    rw [e] at h
    cases h

omit [CharTables] [FloatTables] [CaseTables] in
theorem jsonValueAsU32_small {m : Nat} (hm : m < 2 ^ 31) :
    (some (Json.num (.int m))).bind jsonValueAsU32 = some m := by
  rw [Option.bind_some]
  simp only [jsonValueAsU32, Int.toNat_natCast, ite_eq_left_iff]
  omega

omit [CharTables] [FloatTables] [CaseTables] in
theorem decimal_parse (p s : Nat) :
    parseLogicalType "decimal" (some p) (some s) = some (.decimal p s) := by
  simp [parseLogicalType]

omit [CharTables] [FloatTables] [CaseTables] in
theorem decimal_promote {p s : Nat} (hp : p < 2 ^ 31) (hs : s < 2 ^ 31) {q : Props}
    (hl : "logicalType" ∉ q.map Prod.fst) (hl' : "precision" ∉ q.map Prod.fst)
    (hl'' : "scale" ∉ q.map Prod.fst) :
    tryPromote (.annotated .bytes (("logicalType", .str "decimal") :: ("precision", .num (.int p))
      :: ("scale", .num (.int s)) :: q)) = .logical (.decimal p s) q := by
  obtain ⟨g1, g2, g3⟩ := decimal_get (.str "decimal") (.num (.int p)) (.num (.int s)) q
  rw [tryPromote, g1, g2, g3, asJavaInt_some hp (jsonValueAsU32_small hp),
    asJavaInt_some hs (jsonValueAsU32_small hs)]
  dsimp only
  rw [decimal_parse]
  dsimp only
  rw [if_neg (not_not.mpr (show (LogicalType.decimal p s).base = .bytes from rfl)), consumedProps,
    decimal_rest, props_erase_not hl, props_erase_not hl',
    props_erase_not hl'']

theorem decimal_agree (ns : Option String) {ptext stext : String} {n n' : Notation} {p s : Nat}
    {a b c : Annot} {as : List Annot} (hp : IntegerToken ptext n false false p)
    (hs : IntegerToken stext n' false false s) (h0 : 0 < p) (hsp : s ≤ p) (hlt : p < 2 ^ 31)
    (ha : Says a "logicalType" (.str "decimal")) (hb : Says b "precision" (.num (.int p)))
    (hc : Says c "scale" (.num (.int s))) (h1 : NoneCalled "logicalType" as)
    (h2 : NoneCalled "precision" as) (h3 : NoneCalled "scale" as) (optional : Bool)
    (ps ss sp sp' sp'' sp''' : Option Span) :
    Agree Eq
      (walkFullType ns (.mk as (.prim (.decimal ptext ps (some (stext, ss))) optional sp) sp'))
      (walkFullType ns (.mk (a :: b :: c :: as) (.prim (.prim .bytes) optional sp'') sp''')) := by
  rw [walkFullType.eq_1 ns (a :: b :: c :: as), walkAnnots_says _ ha (by decide),
    walkAnnots_says _ hb (by decide), walkAnnots_says _ hc (by decide), decimal_props]
  refine logical_agree ns (lt := .decimal p s) (base := .bytes) (pre := [("logicalType", .str "decimal"),
    ("precision", .num (.int p)), ("scale", .num (.int s))]) ?_ (by decide) (List.cons_ne_nil _ _) ?_ ?_
    optional sp sp' sp'' sp'''
  · have e1 : parseIntegerAsU32 ptext = some p := by
      rw [Props.C18_u32_partial hp, if_pos ⟨rfl, by omega⟩]
    have e2 : scaleOf (some (stext, ss)) = some s := by
      show parseIntegerAsU32 stext = _
      rw [Props.C18_u32_partial hs, if_pos ⟨rfl, by omega⟩]
    rw [walkPrim_decimal, e1, e2]
    dsimp only
    rw [if_neg (by omega), if_neg (by omega)]
  · intro q hq
    have hl : "logicalType" ∉ q.map Prod.fst := hq _ (List.mem_cons_self)
    have hl' : "precision" ∉ q.map Prod.fst := hq _ (List.mem_cons_of_mem _ List.mem_cons_self)
    have hl'' : "scale" ∉ q.map Prod.fst := hq _ (List.mem_cons_of_mem _ (List.mem_cons_of_mem _ List.mem_cons_self))
    exact decimal_promote hlt (by omega) hl hl' hl''
  · intro k hk
    simp only [List.map_cons, List.map_nil, List.mem_cons, List.not_mem_nil, or_false] at hk
    rcases hk with rfl | rfl | rfl
    · exact h1
    · exact h2
    · exact h3

/-! ## All types -/

/-- An optional type and a union with `null`. -/
theorem optional_agree (ns : Option String) {pl : Place} (hpl : pl ≠ .exact) {t t' : PlainType}
    {e e' : Except Fault Schema} (hee : Alike (fun x x' => x.blank = x'.blank) e e')
    (he : ∀ s, e = .ok s → Single s) (he' : ∀ s, e' = .ok s → Single s) (sp sp' s s'' : Option Span)
    (ht : walkPlainType ns t = W.bind (W.lift e) fun x => W.lift (wrapOptional true sp x))
    (ht' : walkPlainType ns t' = W.lift e') :
    Agree (Fit pl) (walkPlainType ns t) (walkPlainType ns (.union (optionalUnion pl
        (.mk [] (.prim (.prim .null) false sp') s) (.mk [] t' s'')))) := by
  have hfull : walkFullType ns (.mk [] t' s'') = W.lift e' := by
    rw [walkFullType, ht']
    cases e' <;> rfl
  have hnull : walkFullType ns (.mk [] (.prim (.prim .null) false sp') s) = W.pure (.prim .null) := rfl
  rw [ht]
  cases hee with
  | @error f f' hf =>
    cases pl with
    | exact => exact absurd rfl hpl
    | nullFirst =>
      rw [optionalUnion, walkPlainType, walkFullTypes, walkFullTypes, hfull, hnull]
      · exact fun _ _ _ => .error hf
      · exact fun h => nomatch h
    | nullLast =>
      rw [optionalUnion, walkPlainType, walkFullTypes, hfull]
      exact fun _ _ _ => .error hf
  | @ok x x' hxx =>
    have hx := he x rfl
    have hx' := he' x' rfl
    have e1 : W.bind (W.lift (.ok x)) (fun x => W.lift (wrapOptional true sp x)) =
        W.pure (withMark true x) := by
      show W.lift (wrapOptional true sp x) = _
      rw [wrapOptional_mark hx]
      rfl
    rw [e1]
    cases pl with
    | exact => exact absurd rfl hpl
    | nullFirst =>
      have e2 : walkPlainType ns (.union (optionalUnion .nullFirst
          (.mk [] (.prim (.prim .null) false sp') s) (.mk [] t' s''))) =
          W.pure (.union [.prim .null, x'] false) := by
        rw [optionalUnion, walkPlainType, walkFullTypes, walkFullTypes, walkFullTypes, hfull, hnull]
        · show W.lift (checkUnion [.prim .null, x'] _) = _
          have e3 : ∀ spans, checkUnion [.prim .null, x'] spans = .ok (.union [.prim .null, x'] false) := by
            intro spans
            unfold checkUnion
            have f1 : firstUnion [.prim .null, x'] spans = none := by
              show (if x'.isUnion then _ else _) = _
              rw [hx'.1]
              rfl
            have f2 : firstDuplicate [] ([Schema.prim .null, x'].map Schema.unionKey) spans = none := by
              show (if ["null"].contains x'.unionKey then _ else _) = _
              have : ["null"].contains x'.unionKey = false := by
                rw [List.contains_eq_mem, decide_eq_false_iff_not, List.mem_singleton]
                exact hx'.2
              rw [this]
              rfl
            rw [f1, f2]
          rw [e3]
          rfl
        · exact fun h => nomatch h
      rw [e2]
      refine .pure ?_
      show Schema.union (blankSchemas _) _ = Schema.union (blankSchemas _) _
      simp only [blankSchemas, hxx]
    | nullLast =>
      have e2 : walkPlainType ns (.union (optionalUnion .nullLast
          (.mk [] (.prim (.prim .null) false sp') s) (.mk [] t' s''))) =
          W.pure (.union [x', .prim .null] false) := by
        rw [optionalUnion, walkPlainType, walkFullTypes, walkFullTypes, walkFullTypes, hfull, hnull]
        show W.lift (checkUnion [x', .prim .null] _) = _
        have e3 : ∀ spans, checkUnion [x', .prim .null] spans = .ok (.union [x', .prim .null] false) := by
          intro spans
          unfold checkUnion
          have f1 : firstUnion [x', .prim .null] spans = none := by
            show (if x'.isUnion then _ else _) = _
            rw [hx'.1]
            rfl
          have f2 : firstDuplicate [] ([x', Schema.prim .null].map Schema.unionKey) spans = none := by
            show (if [x'.unionKey].contains "null" then _ else _) = _
            have : [x'.unionKey].contains "null" = false := by
              rw [List.contains_eq_mem, decide_eq_false_iff_not, List.mem_singleton]
              exact Ne.symm hx'.2
            rw [this]
            rfl
          rw [f1, f2]
        rw [e3]
        rfl
      rw [e2]
      refine .pure fun j hj => ?_
      cases j with
      | null => exact absurd rfl hj
      | _ =>
        show Schema.union (blankSchemas _) _ = Schema.union (blankSchemas _) _
        simp only [blankSchemas, hxx]

mutual
theorem sameType_read (ns : Option String) {pl : Place} {t t' : FullType} : SameType pl t t' →
    Agree (Fit pl) (walkFullType ns t) (walkFullType ns t')
  | .annotated (t := t) (t' := t') (sp := sp) (sp' := sp') ha ht => by
      rw [walkFullType, walkFullType]
      refine Agree.bind (walkAnnots_agree bareCtx ha {}) fun p p' hp => ?_
      subst hp
      refine Agree.bind (samePlain_read ns ht) fun s s' hs => ?_
      exact (finishFullType_agree p.props sp sp' hs).imp fun _ _ h => fit_of_exact h _
  | .plain (t := t) (t' := t') (sp := sp) (sp' := sp') ht => by
      have e : ∀ (t : PlainType) (sp : Option Span), walkFullType ns (.mk [] t sp) =
          walkPlainType ns t := by
        intro t sp
        rw [walkFullType]
        funext l
        show W.bind (walkPlainType ns t) (fun s => W.pure s) l = _
        unfold W.bind
        cases walkPlainType ns t l <;> rfl
      rw [e, e]
      exact samePlain_read ns ht
  | .keyword h ha has =>
      (keyword_agree ns h ha has _ _ _ _ _).imp fun _ _ h => fit_of_exact (congrArg half h) _
  | .decimal hp hs h0 hsp hlt ha hb hc h1 h2 h3 =>
      (decimal_agree ns hp hs h0 hsp hlt ha hb hc h1 h2 h3 _ _ _ _ _ _ _).imp
        fun _ _ h => fit_of_exact (congrArg half h) _
theorem samePlain_read (ns : Option String) {pl : Place} {t t' : PlainType} : SamePlain pl t t' →
    Agree (Fit pl) (walkPlainType ns t) (walkPlainType ns t')
  | .array h => by
      rw [walkPlainType, walkPlainType]
      refine Agree.bind (sameType_read ns h) fun s s' hs => .pure (fit_of_exact ?_ _)
      show Schema.array _ _ = Schema.array _ _
      rw [show s.blank = s'.blank from hs]
  | .map h => by
      rw [walkPlainType, walkPlainType]
      refine Agree.bind (sameType_read ns h) fun s s' hs => .pure (fit_of_exact ?_ _)
      show Schema.map _ _ = Schema.map _ _
      rw [show s.blank = s'.blank from hs]
  | .union h => by
      rw [walkPlainType, walkPlainType]
      refine Agree.bind (sameTypes_read ns h) fun ss ss' hs => ?_
      exact .lift ((checkUnion_agree hs _ _).imp fun _ _ h => fit_of_exact h _)
  | .prim (p := p) (p' := p') (optional := optional) (sp := sp) (sp' := sp') h => by
      rw [walkPlainType, walkPlainType]
      have h1 := walkPrim_agree h
      have h2 : ∀ s, walkPrim p = .ok s → s.isUnion = false := fun s => walkPrim_union
      revert h1 h2
      generalize walkPrim p = x
      generalize walkPrim p' = y
      intro h1 h2
      cases h1 with
      | error e => exact fun _ _ _ => .error e
      | @ok a b h =>
        subst h
        refine Agree.bind (R := fun s s' => s = a ∧ s' = a) (.lift (.ok ⟨rfl, rfl⟩)) ?_
        rintro _ _ ⟨rfl, rfl⟩
        exact .lift ((wrapOptional_agree optional sp sp' rfl (h2 _ rfl) (h2 _ rfl)).imp
          fun _ _ h => fit_of_exact h _)
  | .named (i := i) (i' := i') (sp := sp) (sp' := sp') (optional := optional) h => by
      rw [walkPlainType, walkPlainType]
      refine .lift ((wrapOptional_agree optional sp sp' (refTo_half h sp sp' ns) ?_ ?_).imp
          fun _ _ h => fit_of_exact h _)
      · unfold refTo; split <;> rfl
      · unfold refTo; split <;> rfl
  | .optional (p := p) (sp := sp) (s' := s') hpl hp => by
      refine optional_agree ns hpl (e := walkPrim p) (e' := walkPrim p) ?_
        (fun _ h => walkPrim_single h hp) (fun _ h => walkPrim_single h hp) sp _ _ _ ?_ ?_
      · cases walkPrim p with
        | ok => exact .ok rfl
        | error => exact .error rfl
      · rw [walkPlainType]
      · rw [walkPlainType]
        cases walkPrim p <;> rfl
  | .optionalName (i := i) (s' := s') (sp := sp) hpl hi => by
      refine optional_agree ns hpl (e := .ok (refTo (identifierText i) sp ns))
        (e' := .ok (refTo (identifierText i) s' ns))
        (.ok (blank_of_half (refTo_half rfl _ _ _))) ?_ ?_ sp _ _ _ ?_ ?_
      · intro s h; cases h; exact refTo_single hi sp ns
      · intro s h; cases h; exact refTo_single hi s' ns
      · rw [walkPlainType]; rfl
      · rw [walkPlainType]; rfl
theorem sameTypes_read (ns : Option String) {ts ts' : List FullType} : SameTypes ts ts' →
    Agree (fun ss ss' => ss.map Schema.blank = ss'.map Schema.blank) (walkFullTypes ns ts)
      (walkFullTypes ns ts')
  | .nil => .pure rfl
  | .cons h hs => by
      rw [walkFullTypes, walkFullTypes]
      refine Agree.bind (sameType_read ns h) fun s s' e => ?_
      refine Agree.bind (sameTypes_read ns hs) fun ss ss' e' => .pure ?_
      rw [List.map_cons, List.map_cons, e', show s.blank = s'.blank from e]
end

end

end Avdl.Notations
