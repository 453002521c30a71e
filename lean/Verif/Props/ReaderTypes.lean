import Verif.Spec.Reading
import Verif.Spec.Default
import Verif.Lemmas.ReaderDecls
import Verif.Props.Defaults
/-!
# C09, C14, C15, C29: what is accepted from source files

All theorems here are about `readFile`, the tree walk over a parsed source file, and hold for
every token stream and every parse tree.  Vocabulary: `Spec/Reading.lean`.
-/

namespace Avdl.Props
open Spec

section
variable [CharTables] [FloatTables] [CaseTables]

/-! ### Results in terms of the specification's vocabulary -/

theorem declares_out {tokens ast r} (h : readFile tokens ast = .ok r) {s : Schema}
    (hs : Declares r s) : NamedOut s := by
  obtain ⟨hd⟩ := hs
  exact (readFile_out h).decls s (DeclItem.mem_types.mpr ⟨_, _, hd⟩)

theorem hasMessage_out {tokens ast r} (h : readFile tokens ast = .ok r) {n : String} {m : Message}
    (hm : HasMessage r n m) : ∃ ns, MessageOut ns m := by
  obtain ⟨hp, hm⟩ := hm
  exact ⟨_, ((readFile_out h).protocol _ hp).2.2.2.2.2 _ hm⟩

theorem hasField_out {tokens ast r} (h : readFile tokens ast = .ok r) {f : Field}
    (hf : HasField r f) : ∃ ns, FieldOut ns f := by
  cases hf with
  | field hd hm =>
    cases declares_out h hd with
    | record _ _ _ _ _ _ _ _ _ hfs _ _ => exact ⟨_, hfs f hm⟩
  | param hm hf =>
    obtain ⟨ns, ho⟩ := hasMessage_out h hm
    exact ⟨ns, ho.request f hf⟩

/-! ### C15 -/

omit [CharTables] [FloatTables] [CaseTables] in
/-- The key compared by the implementation is a function of the branch. -/
theorem unionKey_eq (s : Schema) : s.unionKey = match branch s with
    | .primitive p => p.asStr
    | .array => "array"
    | .map => "map"
    | .union => "union"
    | .named n => n := by
  cases s <;> rfl

omit [CharTables] [FloatTables] [CaseTables] in
theorem branch_union {s : Schema} : branch s = .union ↔ s.isUnion = true := by
  cases s <;> simp [branch, Schema.isUnion]

omit [CharTables] [FloatTables] [CaseTables] in
theorem branch_prim {s : Schema} {p : Prim} : branch s = .primitive p ↔ s.primKind = some p := by
  cases s <;> simp [branch, Schema.primKind]

omit [CharTables] [FloatTables] [CaseTables] in
theorem typeOut_unions {ns : Option String} {s : Schema} (h : TypeOut ns s) :
    ∀ ts b, Occurs (.union ts b) s → LegalUnion ts := by
  induction h with
  | prim p => intro ts b h; cases h
  | annotated k ps _ => intro ts b h; cases h
  | logical lt ps _ _ => intro ts b h; cases h
  | ref n ns' sp _ => intro ts b h; cases h
  | array t ps _ _ ih => intro ts b h; cases h with | items h => exact ih ts b h
  | map t ps _ _ ih => intro ts b h; cases h with | values h => exact ih ts b h
  | union us _ hu hn ih =>
    intro ts b h
    cases h with
    | self =>
      refine ⟨fun t ht hb => ?_, ?_⟩
      · rw [branch_union, hu t ht] at hb; cases hb
      · rw [List.nodup_iff_pairwise_ne, List.pairwise_map] at hn
        refine hn.imp fun {a c} hac he => hac ?_
        rw [unionKey_eq, unionKey_eq, he]
    | branch ht h => exact ih _ ht ts b h
  | optional t ht hu hk ih =>
    intro ts b h
    cases h with
    | self =>
      refine ⟨fun x hx hb => ?_, ?_⟩
      · simp only [List.mem_cons, List.not_mem_nil, or_false] at hx
        rcases hx with rfl | rfl
        · cases hb
        · rw [branch_union, hu] at hb; cases hb
      · simp only [List.pairwise_cons, List.mem_cons, List.not_mem_nil, or_false, forall_eq,
          false_imp_iff, implies_true, List.Pairwise.nil, and_true]
        intro he
        exact hk (branch_prim.mp he.symm)
    | branch hx h =>
      simp only [List.mem_cons, List.not_mem_nil, or_false] at hx
      rcases hx with rfl | rfl
      · cases h
      · exact ih ts b h

omit [CharTables] [FloatTables] [CaseTables] in
/-- The reordering of optional types keeps unions legal. -/
theorem fixOptional_unions {s : Schema} {d : Option Json}
    (h : ∀ ts b, Occurs (.union ts b) s → LegalUnion ts) :
    ∀ ts b, Occurs (.union ts b) (fixOptional s d) → LegalUnion ts := by
  intro ts b ho
  unfold fixOptional at ho
  split at ho
  · rename_i x y
    split at ho
    · exact h ts b ho
    · exact h ts b ho
    · cases ho with
      | self =>
        obtain ⟨h1, h2⟩ := h [x, y] true .self
        refine ⟨fun t ht => h1 t (by simp only [List.mem_cons] at ht ⊢; grind), ?_⟩
        simp only [List.pairwise_cons, List.mem_cons, List.not_mem_nil, or_false, forall_eq,
          false_imp_iff, implies_true, List.Pairwise.nil, and_true] at h2 ⊢
        exact Ne.symm h2
      | branch ht ho =>
        refine h ts b (.branch (t := _) ?_ ho)
        simp only [List.mem_cons] at ht ⊢; grind
  · exact h ts b ho

/-- **C15.** Every union in anything read from a source file, at any depth, is a legal union. -/
theorem C15_accepted_unions_legal (tokens : List Token) (ast : FileAst) (r : ReadResult)
    (h : readFile tokens ast = .ok r) (s : Schema) (hs : HasSchema r s) (ts : List Schema)
    (b : Bool) (ho : Occurs (.union ts b) s) : LegalUnion ts := by
  have hf : ∀ ns f, FieldOut ns f → ∀ ts b, Occurs (.union ts b) f.schema → LegalUnion ts := by
    intro ns f hf ts b ho
    obtain ⟨t, ht, he⟩ := hf.type
    rw [he] at ho
    exact fixOptional_unions (typeOut_unions ht) ts b ho
  cases hs with
  | declared hd =>
    cases declares_out h hd with
    | record n ns doc fs er al ps _ _ hfs _ _ =>
      cases ho with
      | field hm ho => exact hf ns _ (hfs _ hm) ts b ho
    | enum => cases ho
    | fixed => cases ho
  | main hm =>
    obtain ⟨ns, ht⟩ := (readFile_out h).schema _ hm
    exact typeOut_unions ht ts b ho
  | param hm hp =>
    obtain ⟨ns, hmo⟩ := hasMessage_out h hm
    exact hf ns _ (hmo.request _ hp) ts b ho
  | response hm =>
    obtain ⟨ns, hmo⟩ := hasMessage_out h hm
    exact typeOut_unions hmo.response ts b ho
  | error hm hes hs =>
    obtain ⟨ns, hmo⟩ := hasMessage_out h hm
    obtain ⟨i, sp, rfl⟩ := hmo.errors _ hes _ hs
    exact typeOut_unions (refTo_out i sp ns) ts b ho

/-- The names of the unnamed types. -/
def unnamedTypeNames : List String :=
  ["null", "boolean", "int", "long", "float", "double", "bytes", "string", "array", "map", "union"]

omit [CharTables] [FloatTables] [CaseTables] in
theorem unionKey_inj {a b : Schema} (ha : ∀ n, branch a = .named n → n ∉ unnamedTypeNames)
    (hb : ∀ n, branch b = .named n → n ∉ unnamedTypeNames) (h : a.unionKey = b.unionKey) :
    branch a = branch b := by
  rw [unionKey_eq, unionKey_eq] at h
  generalize branch a = x at *
  generalize branch b = y at *
  cases x with
  | named n =>
    cases y with
    | named m => simp only at h; rw [h]
    | primitive p => exact absurd (by simp only at h; rw [h]; cases p <;> decide) (ha n rfl)
    | array => exact absurd (by simp only at h; rw [h]; decide) (ha n rfl)
    | map => exact absurd (by simp only at h; rw [h]; decide) (ha n rfl)
    | union => exact absurd (by simp only at h; rw [h]; decide) (ha n rfl)
  | primitive q =>
    cases y with
    | named n => exact absurd (by simp only at h; rw [← h]; cases q <;> decide) (hb n rfl)
    | primitive p => cases p <;> cases q <;> first | rfl | exact absurd h (by decide)
    | array => cases q <;> exact absurd h (by decide)
    | map => cases q <;> exact absurd h (by decide)
    | union => cases q <;> exact absurd h (by decide)
  | array =>
    cases y with
    | named n => exact absurd (by simp only at h; rw [← h]; decide) (hb n rfl)
    | primitive p => cases p <;> exact absurd h (by decide)
    | array => rfl
    | map => exact absurd h (by decide)
    | union => exact absurd h (by decide)
  | map =>
    cases y with
    | named n => exact absurd (by simp only at h; rw [← h]; decide) (hb n rfl)
    | primitive p => cases p <;> exact absurd h (by decide)
    | array => exact absurd h (by decide)
    | map => rfl
    | union => exact absurd h (by decide)
  | union =>
    cases y with
    | named n => exact absurd (by simp only at h; rw [← h]; decide) (hb n rfl)
    | primitive p => cases p <;> exact absurd h (by decide)
    | array => exact absurd h (by decide)
    | map => exact absurd h (by decide)
    | union => rfl

omit [CharTables] [FloatTables] [CaseTables] in
theorem firstDuplicate_nodup {ks seen : List String} (h : ks.Nodup) (h' : ∀ k ∈ ks, k ∉ seen) :
    ∀ sps, firstDuplicate seen ks sps = none := by
  induction ks generalizing seen with
  | nil => exact fun _ => rfl
  | cons k ks ih =>
    intro sps
    obtain ⟨h1, h2⟩ := List.nodup_cons.mp h
    simp only [firstDuplicate]
    rw [if_neg (by simpa using h' k (by simp))]
    refine ih h2 (fun j hj hc => ?_) _
    rcases List.mem_append.mp hc with hc | hc
    · exact h' j (List.mem_cons_of_mem _ hj) hc
    · simp only [List.mem_singleton] at hc
      rw [hc] at hj; exact h1 hj

/-- **C15, converse.** A union whose members are accepted and make a legal union is accepted,
provided no member is a namespace-less type called like an unnamed type. -/
theorem C15_legal_unions_accepted (ns : Option String) (ts : List FullType) (ss : List Schema)
    (l l' : Log) (hm : walkFullTypes ns ts l = .ok (ss, l')) (hl : LegalUnion ss)
    (hn : ∀ s ∈ ss, ∀ n, branch s = .named n → n ∉ unnamedTypeNames) :
    walkPlainType ns (.union ts) l = .ok (.union ss false, l') := by
  have hu : firstUnion ss (ts.map FullType.span) = none := by
    rw [firstUnion_none]
    intro s hs
    rw [Bool.eq_false_iff]
    intro hc
    exact hl.1 s hs (branch_union.mpr hc)
  have hk : (ss.map Schema.unionKey).Nodup := by
    rw [List.nodup_iff_pairwise_ne, List.pairwise_map]
    refine (List.Pairwise.and_mem.mp hl.2).imp fun {a b} h hc => h.2.2 ?_
    exact unionKey_inj (hn a h.1) (hn b h.2.1) hc
  have hd : firstDuplicate [] (ss.map Schema.unionKey) (ts.map FullType.span) = none :=
    firstDuplicate_nodup hk (fun _ _ => by simp) _
  simp only [walkPlainType, W.bind, hm, checkUnion, hu, hd]
  rfl

/-! ### C14 -/

/-- The type `T` of a type expression `T?`, annotations included. -/
def baseOfOptional : FullType → Option FullType
  | .mk as (.prim p true sp) sp' => some (.mk as (.prim p false sp) sp')
  | .mk as (.named i sp true) sp' => some (.mk as (.named i sp false) sp')
  | _ => none

omit [CharTables] [FloatTables] [CaseTables] in
theorem wrapOptional_true {sp : Option Span} {s u : Schema}
    (h : wrapOptional true sp s = .ok u) :
    u = .union [.prim .null, s] true := by
  simp only [wrapOptional, if_true] at h
  split at h
  · cases h
  · injection h with h; exact h.symm

omit [CharTables] [FloatTables] [CaseTables] in
theorem applyProps_base {s : Schema} (h : (∃ q, s = .prim q) ∨ (∃ lt, s = .logical lt []) ∨
    ∃ n ns sp, s = .ref n ns [] sp) (ps : Props) : applyProps s ps = applyToSchema s ps := by
  rcases h with ⟨q, rfl⟩ | ⟨lt, rfl⟩ | ⟨n, ns, sp, rfl⟩ <;> rfl

omit [CharTables] [FloatTables] [CaseTables] in
theorem finish_optional {s u : Schema} {ps : Props} {span : Option Span} {l l' : Log}
    (hs : (∃ q, s = .prim q) ∨ (∃ lt, s = .logical lt []) ∨ ∃ n ns sp, s = .ref n ns [] sp)
    (h : finishFullType ps span (.union [.prim .null, s] true) l = .ok (u, l')) :
    ∃ t, finishFullType ps span s l = .ok (t, l') ∧ u = .union [.prim .null, t] true := by
  have h1 : isTypeReference (.union [.prim .null, s] true) = isTypeReference s := by
    rcases hs with ⟨q, rfl⟩ | ⟨lt, rfl⟩ | ⟨n, ns, sp, rfl⟩ <;> rfl
  have h2 : isNonNullableUnion (.union [.prim .null, s] true) = isNonNullableUnion s := by
    rcases hs with ⟨q, rfl⟩ | ⟨lt, rfl⟩ | ⟨n, ns, sp, rfl⟩ <;> rfl
  have h3 : isNonNullableUnion s = false := by
    rcases hs with ⟨q, rfl⟩ | ⟨lt, rfl⟩ | ⟨n, ns, sp, rfl⟩ <;> rfl
  unfold finishFullType at h ⊢
  rw [h1, h2] at h
  rw [h3] at h ⊢
  split at h
  · rename_i he
    rw [if_pos he]
    simp only [W.pure, Except.ok.injEq, Prod.mk.injEq] at h
    refine ⟨s, ?_, h.1.symm⟩
    rw [← h.2]; rfl
  · rename_i he
    rw [if_neg he]
    split at h
    · cases h
    · rename_i hr
      rw [if_neg hr]
      simp only [Bool.false_eq_true, if_false, W.bind, W.pure, Except.ok.injEq,
        Prod.mk.injEq] at h ⊢
      refine ⟨applyProps s ps, ⟨rfl, h.2⟩, ?_⟩
      rw [← h.1, applyProps_base hs]
      simp only [applyProps, Schema.isNull, if_true]

/-- Walking `T?` is walking `T` and making the union of null and the result. -/
theorem walk_optional (ns : Option String) (ft bt : FullType) (hb : baseOfOptional ft = some bt)
    (l : Log) (u : Schema) (l' : Log) (h : walkFullType ns ft l = .ok (u, l')) :
    ∃ t, walkFullType ns bt l = .ok (t, l') ∧ u = .union [.prim .null, t] true := by
  unfold baseOfOptional at hb
  split at hb
  · injection hb with hb; subst hb
    rename_i as p sp sp'
    simp only [walkFullType, W.bind] at h ⊢
    cases ha : walkAnnots bareCtx {} as l with
    | error e => rw [ha] at h; cases h
    | ok r =>
      obtain ⟨p', l1⟩ := r
      rw [ha] at h
      simp only [walkPlainType, W.bind] at h ⊢
      cases hp : walkPrim p with
      | error e => rw [hp] at h; cases h
      | ok s =>
        rw [hp] at h
        simp only [W.lift] at h ⊢
        cases hw : wrapOptional true sp s with
        | error e => rw [hw] at h; cases h
        | ok v =>
          rw [hw] at h
          have := wrapOptional_true hw
          subst this
          simp only [wrapOptional, Bool.false_eq_true, if_false]
          refine finish_optional ?_ h
          rcases walkPrim_cases hp with h | h
          · exact Or.inl h
          · exact Or.inr (Or.inl (by obtain ⟨lt, -, h⟩ := h; exact ⟨lt, h⟩))
  · injection hb with hb; subst hb
    rename_i as i sp sp'
    simp only [walkFullType, W.bind] at h ⊢
    cases ha : walkAnnots bareCtx {} as l with
    | error e => rw [ha] at h; cases h
    | ok r =>
      obtain ⟨p', l1⟩ := r
      rw [ha] at h
      simp only [walkPlainType] at h ⊢
      cases hw : wrapOptional true sp (refTo (identifierText i) sp ns) with
      | error e => rw [hw] at h; cases h
      | ok v =>
        rw [hw] at h
        have := wrapOptional_true hw
        subst this
        simp only [wrapOptional, Bool.false_eq_true, if_false, W.lift] at h ⊢
        refine finish_optional ?_ h
        obtain ⟨n, ns', he⟩ := refTo_eq (identifierText i) sp ns
        exact Or.inr (Or.inr ⟨n, ns', sp, he⟩)
  · cases hb

/-- The default calls for the reversed order. -/
def NonNullDefault (d : Option Json) : Prop := ∃ v, d = some v ∧ v ≠ .null

instance (d : Option Json) : Decidable (NonNullDefault d) :=
  match d with
  | none => isFalse (by rintro ⟨v, h, -⟩; cases h)
  | some v => decidable_of_iff (v ≠ .null)
      ⟨fun h => ⟨v, rfl, h⟩, by rintro ⟨w, h, hw⟩; cases h; exact hw⟩

omit [CharTables] [FloatTables] [CaseTables] in
theorem fixOptional_optional (t : Schema) (d : Option Json) :
    fixOptional (.union [.prim .null, t] true) d =
      if NonNullDefault d then .union [t, .prim .null] true
      else .union [.prim .null, t] true := by
  cases d with
  | none => rfl
  | some v => cases v <;> rfl

/-- The schema of a field, given the type that was walked. -/
theorem walkVariable_schema (tokens : List Token) (t : Schema) (doc : Option String) (v : VarDecl) :
    Post (walkVariable tokens t doc v) fun f => f.schema = fixOptional t f.default := by
  unfold walkVariable
  refine (Post.any _).bind fun _ _ => (Post.any _).bind fun _ _ => (Post.any _).bind fun _ _ =>
    (Post.any _).bind fun _ _ => .pure rfl

theorem walkVariables_schema (tokens : List Token) (t : Schema) (doc : Option String) :
    ∀ vs, Post (walkVariables tokens t doc vs) fun fs => ∀ f ∈ fs,
      f.schema = fixOptional t f.default
  | [] => .pure (by simp)
  | v :: vs => by
      refine (walkVariable_schema tokens t doc v).bind fun f hf => ?_
      refine (walkVariables_schema tokens t doc vs).bind fun fs hfs => .pure fun x hx => ?_
      rcases List.mem_cons.mp hx with e | e
      · rw [e]; exact hf
      · exact hfs x e

/-- **C14, order.** For a field declared as `T?`, every variable's type is the union of null and
whatever `T` alone is read as, null first unless the variable has a non-null default. -/
theorem C14_optional_field_order (tokens : List Token) (ns : Option String) (d : FieldDecl)
    (bt : FullType) (hb : baseOfOptional d.type = some bt) (l : Log) (fs : List Field) (l' : Log)
    (h : walkField tokens ns d l = .ok (fs, l')) :
    ∃ t l1 l2, walkFullType ns bt l1 = .ok (t, l2) ∧ ∀ f ∈ fs,
      f.schema = if NonNullDefault f.default then .union [t, .prim .null] true
        else .union [.prim .null, t] true := by
  simp only [walkField, W.bind] at h
  cases hd : walkDoc tokens d.start l with
  | error e => rw [hd] at h; cases h
  | ok r =>
    obtain ⟨doc, l1⟩ := r
    rw [hd] at h
    simp only at h
    cases ht : walkFullType ns d.type l1 with
    | error e => rw [ht] at h; cases h
    | ok r =>
      obtain ⟨u, l2⟩ := r
      rw [ht] at h
      obtain ⟨t, hw, rfl⟩ := walk_optional ns d.type bt hb l1 u l2 ht
      refine ⟨t, l1, l2, hw, fun f hf => ?_⟩
      rw [← fixOptional_optional]
      exact walkVariables_schema tokens _ doc d.vars _ _ _ h f hf

/-- **C14, order, for parameters.** -/
theorem C14_optional_parameter_order (tokens : List Token) (ns : Option String) (message : String)
    (seen : List String) (p : Param) (ps : List Param) (bt : FullType)
    (hb : baseOfOptional p.type = some bt) (l : Log) (fs : List Field) (l' : Log)
    (h : walkParams tokens ns message seen (p :: ps) l = .ok (fs, l')) :
    ∃ t l1 l2 f rest, walkFullType ns bt l1 = .ok (t, l2) ∧ fs = f :: rest ∧
      f.schema = if NonNullDefault f.default then .union [t, .prim .null] true
        else .union [.prim .null, t] true := by
  simp only [walkParams, W.bind] at h
  cases hd : walkDoc tokens p.start l with
  | error e => rw [hd] at h; cases h
  | ok r =>
    obtain ⟨doc, l1⟩ := r
    rw [hd] at h
    simp only at h
    cases ht : walkFullType ns p.type l1 with
    | error e => rw [ht] at h; cases h
    | ok r =>
      obtain ⟨u, l2⟩ := r
      rw [ht] at h
      obtain ⟨t, hw, rfl⟩ := walk_optional ns p.type bt hb l1 u l2 ht
      simp only at h
      cases hv : walkVariable tokens (.union [.prim .null, t] true) doc p.var l2 with
      | error e => rw [hv] at h; cases h
      | ok r =>
        obtain ⟨f, l3⟩ := r
        rw [hv] at h
        simp only at h
        split at h
        · cases h
        · simp only [W.bind] at h
          split at h
          · cases h
          · rename_i rest l4 hr
            simp only [W.pure, Except.ok.injEq, Prod.mk.injEq] at h
            refine ⟨t, l1, l2, f, rest, hw, h.1.symm, ?_⟩
            rw [← fixOptional_optional]
            exact walkVariable_schema tokens _ doc p.var _ _ _ hv

omit [CharTables] [FloatTables] [CaseTables] in
/-- Results of walking a type carry the flag of the shorthand only as `[null, T]`. -/
theorem typeOut_nullable {ns : Option String} {ts : List Schema}
    (h : TypeOut ns (.union ts true)) : ∃ t, ts = [.prim .null, t] := by
  cases h with
  | optional t => exact ⟨t, rfl⟩

/-- **C14, conformity.** In a file that was read, every field or parameter of an optional type has
either no default or null and the union `[null, T]`, or a non-null default and the union
`[T, null]`; then the default conforms to `T` (checked here for types without references; with
references the default is checked at registration, C13). -/
theorem C14_default_matches_first_branch (tokens : List Token) (ast : FileAst) (r : ReadResult)
    (h : readFile tokens ast = .ok r) (f : Field) (hf : HasField r f) (ts : List Schema)
    (ht : f.schema = .union ts true) :
    (¬ NonNullDefault f.default ∧ ∃ t, ts = [.prim .null, t]) ∨
    (∃ t v, f.default = some v ∧ v ≠ .null ∧ ts = [t, .prim .null] ∧
      (RefFree t → ∀ res, Conforms res v t)) := by
  obtain ⟨ns, ho⟩ := hasField_out h hf
  obtain ⟨u, hu, he⟩ := ho.type
  rw [ht] at he
  have hopt : ∃ t, u = .union [.prim .null, t] true := by
    unfold fixOptional at he
    split at he
    · obtain ⟨t, ht⟩ := typeOut_nullable hu
      exact ⟨t, by rw [ht]⟩
    · subst he
      obtain ⟨t, ht⟩ := typeOut_nullable hu
      exact ⟨t, by rw [ht]⟩
  obtain ⟨t, rfl⟩ := hopt
  rw [fixOptional_optional] at he
  split at he
  · rename_i hd
    obtain ⟨v, hv, hne⟩ := hd
    injection he with he
    refine Or.inr ⟨t, v, hv, hne, he, fun hrf res => ?_⟩
    have hval := ho.default v hv
    rw [ht, he, validateDefault_none_iff] at hval
    have hrf' : RefFree (.union [t, .prim .null] true) := by
      intro x sp hx
      cases hx with
      | branch hm hx =>
        simp only [List.mem_cons, List.not_mem_nil, or_false] at hm
        rcases hm with rfl | rfl
        · exact hrf x sp hx
        · cases hx
    have hc := (C11_accepted_iff_conforms res _ hrf' v).mp hval
    cases hc with
    | union hm hc =>
      simp only [List.mem_cons, List.not_mem_nil, or_false] at hm
      rcases hm with rfl | rfl
      · exact hc
      · cases hc with
        | prim hc => cases hc; exact absurd rfl hne
  · rename_i hd
    injection he with he
    exact Or.inl ⟨hd, t, he⟩

/-! ### C09 -/

/-- **C09, built-in names.** No type declared in a source file, and no protocol, carries the name
of a primitive type or of one of the logical types with a keyword of their own. -/
theorem C09_declared_names_not_builtin (tokens : List Token) (ast : FileAst) (r : ReadResult)
    (h : readFile tokens ast = .ok r) :
    (∀ s, Declares r s → ∃ n, s.name? = some n ∧
      n ∉ ["null", "boolean", "int", "long", "float", "double", "bytes", "string",
        "date", "time_ms", "timestamp_ms", "local_timestamp_ms", "uuid"]) ∧
    ∀ p, r.file = .protocol p →
      p.name ∉ ["null", "boolean", "int", "long", "float", "double", "bytes", "string",
        "date", "time_ms", "timestamp_ms", "local_timestamp_ms", "uuid"] := by
  have key : ∀ n, isInvalidTypeName n = false →
      n ∉ ["null", "boolean", "int", "long", "float", "double", "bytes", "string",
        "date", "time_ms", "timestamp_ms", "local_timestamp_ms", "uuid"] := by
    intro n hn
    simp only [isInvalidTypeName, primitiveTypeNames, invalidLogicalTypeNames,
      Bool.or_eq_false_iff, List.contains_eq_mem, decide_eq_false_iff_not] at hn
    intro hc
    have : ["null", "boolean", "int", "long", "float", "double", "bytes", "string",
        "date", "time_ms", "timestamp_ms", "local_timestamp_ms", "uuid"] =
      ["null", "boolean", "int", "long", "float", "double", "bytes", "string"] ++
        ["date", "time_ms", "timestamp_ms", "local_timestamp_ms", "uuid"] := rfl
    rw [this, List.mem_append] at hc
    exact hc.elim hn.1 hn.2
  refine ⟨fun s hs => ?_, fun p hp => key _ ((readFile_out h).protocol p hp).2.1⟩
  cases declares_out h hs with
  | record n _ _ _ _ _ _ hi => exact ⟨n, rfl, key n hi⟩
  | enum n _ _ _ _ _ _ hi => exact ⟨n, rfl, key n hi⟩
  | fixed n _ _ _ _ _ hi => exact ⟨n, rfl, key n hi⟩

/-! ### C29 -/

/-- **C29.** Declared records have distinct field names; enums have distinct symbols, and a default
among them; messages have distinct parameter names, and a one-way message has a null response. -/
theorem C29_no_duplicates (tokens : List Token) (ast : FileAst) (r : ReadResult)
    (h : readFile tokens ast = .ok r) :
    (∀ n ns d fs e al ps, Declares r (.record n ns d fs e al ps) → (fs.map Field.name).Nodup) ∧
    (∀ n ns d sy df al ps, Declares r (.enum n ns d sy df al ps) →
      sy.Nodup ∧ ∀ s, df = some s → s ∈ sy) ∧
    (∀ n m, HasMessage r n m → (m.request.map Field.name).Nodup ∧
      (m.oneWay = true → m.response = .prim .null)) ∧
    (∀ s, Declares r s → s.IsNamed) := by
  refine ⟨fun n ns d fs e al ps hd => ?_, fun n ns d sy df al ps hd => ?_, fun n m hm => ?_,
    fun s hs => ?_⟩
  · cases declares_out h hd with
    | record _ _ _ _ _ _ _ _ _ _ hn _ => exact hn
  · cases declares_out h hd with
    | enum _ _ _ _ _ _ _ _ _ hn hdf _ => exact ⟨hn, hdf⟩
  · obtain ⟨ns, ho⟩ := hasMessage_out h hm
    exact ⟨ho.distinct, ho.oneWay⟩
  · cases declares_out h hs <;> trivial

end

/-! ### Non-vacuity and limits -/

/-- Tables for the examples. -/
@[reducible] def exFloats : FloatTables := ⟨fun _ => none⟩
/-- Tables for the examples. -/
@[reducible] def exCases : CaseTables := ⟨fun s => s⟩

attribute [local instance] asciiTables exFloats exCases

/-- A variable without annotations. -/
def var (name : String) (default : Option JVal) : VarDecl :=
  ⟨0, [], name, default, none, none, none⟩

/-- A type without annotations. -/
def ty (t : PlainType) : FullType := .mk [] t none

/-- `@namespace("n.s") protocol P {
  enum E { A, B } = A;
  fixed F(16);
  record R {
    string? a, b = "x";
    union { null, E, array<union { int, F }> } u = null;
    @note("n") decimal(5, 2)? d;
  }
  R get(E e, int? n = 4);
  void ping() oneway;
}` -/
def exFile : FileAst := .protocol
  { start := 0, annots := [⟨"namespace", .str "\"n.s\"", none⟩], ident := "P", identSpan := none, body := [
    .named (.enum ⟨0, [], "E", [("A", none), ("B", none)], some ("A", none), none⟩) none,
    .named (.fixed ⟨0, [], "F", "16", none, none⟩) none,
    .named (.record ⟨0, [], false, "R", [
      ⟨0, ty (.prim (.prim .string) true none), [var "a" none, var "b" (some (.str "\"x\""))]⟩,
      ⟨0, ty (.union [ty (.prim (.prim .null) false none), ty (.named "E" none false),
        ty (.array (ty (.union [ty (.prim (.prim .int) false none), ty (.named "F" none false)])))]),
        [var "u" (some .null)]⟩,
      ⟨0, .mk [⟨"note", .str "\"n\"", none⟩] (.prim (.decimal "5" none (some ("2", none))) true none) none,
        [var "d" none]⟩], none⟩) none,
    .message ⟨0, [], some (.named "R" none false), "get",
      [⟨0, ty (.named "E" none false), var "e" none, none⟩,
       ⟨0, ty (.prim (.prim .int) true none), var "n" (some (.int "4" none)), none⟩], false, [], none⟩,
    .message ⟨0, [], none, "ping", [], true, [], none⟩] }

/-- What the record of `exFile` is read as. -/
def exFileR : Schema := .record "R" (some "n.s") none [
  .mk "a" (.union [.prim .null, .prim .string] true) none none none [] [],
  .mk "b" (.union [.prim .string, .prim .null] true) none (some (.str "x")) none [] [],
  .mk "u" (.union [.prim .null, .ref "E" (some "n.s") [] none,
    .array (.union [.prim .int, .ref "F" (some "n.s") [] none] false) []] false) none (some .null)
    none [] [],
  .mk "d" (.union [.prim .null, .logical (.decimal 5 2) [("note", .str "n")]] true) none none none
    [] []] false [] []

/-- The message `get` of `exFile`. -/
def exGet : Message where
  doc := none
  props := []
  request := [.mk "e" (.ref "E" (some "n.s") [] none) none none none [] [],
    .mk "n" (.union [.prim .int, .prim .null] true) none (some (.num (.int 4))) none [] []]
  response := .ref "R" (some "n.s") [] none
  errors := none
  oneWay := false

/-- The message `ping` of `exFile`. -/
def exPing : Message where
  doc := none
  props := []
  request := []
  response := .prim .null
  errors := none
  oneWay := true

/-- What `exFile` is read as. -/
def exFileResult : ReadResult where
  file := .protocol ⟨"P", some "n.s", none, [], [], [("get", exGet), ("ping", exPing)]⟩
  decls := [.type (.enum "E" (some "n.s") none ["A", "B"] (some "A") [] []) none [],
    .type (.fixed "F" (some "n.s") none 16 [] []) none [], .type exFileR none []]
  orphans := []
  warnings := []

/-- The hypothesis of C09, C14, C15, C29 is met. -/
theorem exFile_reads : readFile [] exFile = .ok exFileResult := by rfl

/-- A nested union that C15 speaks about. -/
example : HasSchema exFileResult exFileR ∧
    Occurs (.union [.prim .int, .ref "F" (some "n.s") [] none] false) exFileR :=
  ⟨.declared ⟨List.mem_cons_of_mem _ (List.mem_cons_of_mem _ (List.mem_cons_self ..))⟩,
    .field (List.mem_cons_of_mem _ (List.mem_cons_of_mem _ (List.mem_cons_self ..)))
      (.branch (List.mem_cons_of_mem _ (List.mem_cons_of_mem _ (List.mem_cons_self ..)))
        (.items .self))⟩

/-- An optional parameter with a non-null default that C14 speaks about. -/
example : HasField exFileResult
    (.mk "n" (.union [.prim .int, .prim .null] true) none (some (.num (.int 4))) none [] []) :=
  .param (.message rfl (List.mem_cons_self ..))
    (List.mem_cons_of_mem _ (List.mem_cons_self ..))

/-- C15: duplicates and nested unions are rejected; two differently annotated strings are
duplicates. -/
example : (∃ e, walkPlainType none (.union [ty (.prim (.prim .string) false none),
      .mk [⟨"x", .int "1" none, none⟩] (.prim (.prim .string) false none) none]) ⟨[], []⟩ = .error e) ∧
    ∃ e, walkPlainType none (.union [ty (.prim (.prim .string) true none)]) ⟨[], []⟩ = .error e :=
  ⟨⟨_, rfl⟩, ⟨_, rfl⟩⟩

/-- The hypotheses of the converse of C15 are met. -/
example : ∃ ss l', walkFullTypes (some "n") [ty (.prim (.prim .null) false none),
      ty (.named "array" none false), ty (.array (ty (.prim .date false none)))] ⟨[], []⟩ = .ok (ss, l') ∧
    LegalUnion ss ∧ ∀ s ∈ ss, ∀ n, branch s = .named n → n ∉ unnamedTypeNames := by
  refine ⟨_, _, rfl, by decide, ?_⟩
  intro s hs n hn
  simp only [List.mem_cons, List.not_mem_nil, or_false] at hs
  rcases hs with rfl | rfl | rfl
  · cases hn
  · have : n = "n.array" := by
      have h := hn; simp only [refTo] at h; injection h with h; rw [← h]; decide
    rw [this]; decide
  · cases hn

/-- The restriction in the converse of C15 is needed: a union of a namespace-less type called
`array` and an array is legal but rejected. -/
theorem C15_array_named_type_rejected :
    LegalUnion [.ref "array" none [] none, .array (.prim .int) []] ∧
    walkPlainType none (.union [ty (.named "`array`" none false),
      ty (.array (ty (.prim (.prim .int) false none)))]) ⟨[], []⟩ = .error ⟨.duplicateInUnion "array", none⟩ :=
  ⟨by decide, rfl⟩

/-- C29: each kind of duplicate is rejected. -/
example : (∃ e, walkRecord [] none ⟨0, [], false, "R",
      [⟨0, ty (.prim (.prim .int) false none), [var "a" none]⟩,
       ⟨0, ty (.prim (.prim .long) false none), [var "`a`" none]⟩], none⟩ ⟨[], []⟩ = .error e) ∧
    (∃ e, walkEnum [] none ⟨0, [], "E", [("A", none), ("A", none)], none, none⟩ ⟨[], []⟩ = .error e) ∧
    ∃ e, walkEnum [] none ⟨0, [], "E", [("A", none)], some ("B", none), none⟩ ⟨[], []⟩ = .error e :=
  ⟨⟨_, rfl⟩, ⟨_, rfl⟩, ⟨_, rfl⟩⟩

/-- C09: names of complex types are accepted for declared types when quoted with backticks. -/
theorem C09_complex_type_names_accepted :
    walkEnum [] none ⟨0, [], "`array`", [("A", none)], none, none⟩ ⟨[], []⟩ =
      .ok (.enum "array" none none ["A"] none [] [], ⟨[], []⟩) := rfl

end Avdl.Props
