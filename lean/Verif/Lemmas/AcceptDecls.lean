import Verif.Lemmas.Acceptance
/-!
# Which declarations and files the reader accepts
-/

namespace Avdl
open W Spec

section
variable [CharTables] [FloatTables] [CaseTables]

/-! ## Fields -/

omit [CharTables] [CaseTables] in
theorem checkDefault_accepts {ns : Option String} {type : FullType} {t : Schema}
    (hm : TypeMeans ns type t) (field : String) (sp : Option Span)
    (d : Option Json) : Accepts (checkDefault field sp d (fixOptional t d)) (∀ j, d = some j → FitsType j type) := by
  unfold checkDefault
  cases d with
  | none => exact Accepts.pure.congr (by simp)
  | some v =>
    have := validateDefault_none_iff (fixOptional t (some v)) v
    rw [fixOptional_valid, valid_iff_fitsType ns type t hm v] at this
    simp only
    split
    · rename_i h
      exact Accepts.pure.congr ⟨by rintro - j ⟨⟩; exact this.mp h, fun _ => trivial⟩
    · rename_i h
      refine Accepts.fail.congr ⟨fun h => h.elim, fun h' => ?_⟩
      rw [this.mpr (h' v rfl)] at h
      cases h

theorem walkVariable_accepts (tokens : List Token) {ns : Option String} {type : FullType}
    {t : Schema} (hm : TypeMeans ns type t) (shared : Option String) (v : VarDecl) :
    Accepts (walkVariable tokens t shared v) (VariableOk type v) := by
  unfold walkVariable
  refine Accepts.congr ((walkDoc_accepts tokens v.start).bind (Post.any _) fun _ _ =>
    (walkAnnots_accepts variableCtx (special := ["aliases", "order"])
      (reserved := fieldAttributes) (by simp [Special, variableCtx])
      (by simp only [variableCtx, fieldReserved, fieldAttributes, List.mem_cons,
            List.not_mem_nil]; grind) v.annots {}).bind
    (Post.any _) fun p _ => Accepts.lift.bind (Post.lift fun d hd => hd) fun d hd =>
    (Accepts.bind ((checkDefault_accepts hm (identifierText v.ident) v.defaultSpan d).congr
      (Q := ∀ x j, v.default = some x → walkJson x = .ok j → FitsType j type) ?_) (Post.any _)
      fun _ _ => .pure)) ?_
  · unfold walkDefault at hd
    split at hd
    · rename_i h
      cases hd
      simp [h]
    · rename_i x h
      cases hj : walkJson x with
      | error e => rw [hj] at hd; cases hd
      | ok j =>
        rw [hj] at hd
        cases hd
        rw [h]
        constructor
        · rintro h' x' j' ⟨⟩ hj'
          rw [hj] at hj'; cases hj'
          exact h' _ rfl
        · rintro h' j' ⟨⟩
          exact h' _ _ rfl hj
  · constructor
    · rintro ⟨-, h1, ⟨d, h2⟩, h3, -⟩
      refine ⟨h1, fun x hx => ?_⟩
      rw [hx] at h2
      simp only [walkDefault] at h2
      cases hj : walkJson x with
      | error e => rw [hj] at h2; cases h2
      | ok j => exact ⟨j, rfl, h3 x j hx hj⟩
    · rintro ⟨h1, h2⟩
      refine ⟨trivial, h1, ?_, fun x j hx hj => ?_, trivial⟩
      · cases hx : v.default with
        | none => exact ⟨_, rfl⟩
        | some x =>
          obtain ⟨j, hj, -⟩ := h2 x hx
          exact ⟨some j, by simp [walkDefault, hj]⟩
      · obtain ⟨j', hj', h⟩ := h2 x hx
        rw [hj] at hj'; cases hj'
        exact h

theorem walkVariables_accepts (tokens : List Token) {ns : Option String} {type : FullType}
    {t : Schema} (hm : TypeMeans ns type t) (shared : Option String) : ∀ vs : List VarDecl,
    Accepts (walkVariables tokens t shared vs) (∀ v ∈ vs, VariableOk type v)
  | [] => by simp only [walkVariables]; exact Accepts.pure.congr (by simp)
  | v :: vs => by
      simp only [walkVariables]
      exact Accepts.congr ((walkVariable_accepts tokens hm shared v).bind (Post.any _) fun _ _ =>
        (walkVariables_accepts tokens hm shared vs).bind (Post.any _) fun _ _ => .pure) (by simp)

theorem walkField_accepts (tokens : List Token) (ns : Option String) (d : FieldDecl) :
    Accepts (walkField tokens ns d) (TypeOk ns d.type ∧ ∀ v ∈ d.vars, VariableOk d.type v) := by
  unfold walkField
  exact Accepts.congr ((walkDoc_accepts tokens d.start).bind (Post.any _) fun doc _ =>
    (walkFullType_accepts ns d.type).bind (walkFullType_means ns d.type) fun t ht =>
      walkVariables_accepts tokens ht doc d.vars) (by simp)

omit [CharTables] [FloatTables] [CaseTables] in
theorem checkFieldNames_accepts (record : String) : ∀ (fs : List Field) (seen : List String)
    (sps : List (Option Span)), Accepts (checkFieldNames record seen fs sps)
      ((fs.map Field.name).Nodup ∧ ∀ n ∈ fs.map Field.name, n ∉ seen)
  | [], seen, _ => Accepts.pure.congr (by simp)
  | f :: fs, seen, sps => by
      simp only [checkFieldNames]
      split
      · rename_i h
        exact Accepts.fail.congr ⟨fun h => h.elim, fun hc =>
          hc.2 f.name (List.mem_cons_self ..) (by simpa using h)⟩
      · rename_i h
        have h : f.name ∉ seen := by simpa using h
        refine (checkFieldNames_accepts record fs _ _).congr ?_
        rw [List.map_cons, List.nodup_cons]
        simp only [List.mem_append, not_or, List.mem_cons, forall_eq_or_imp]
        constructor
        · rintro ⟨h1, h2⟩
          exact ⟨⟨fun hk => (h2 _ hk).2.1 rfl, h1⟩, h, fun x hx => (h2 x hx).1⟩
        · rintro ⟨⟨h1, h2⟩, -, h3⟩
          exact ⟨h2, fun x hx => ⟨h3 x hx, fun e => h1 (e ▸ hx), by simp⟩⟩

omit [CharTables] in
theorem matching_names {tokens : List Token} {ns : Option String} {start : Nat} {type : FullType} :
    ∀ {vs : List VarDecl} {fs : List Field},
    Matching (fun v f => FieldMeans tokens ns start type v f) vs fs →
    fs.map Field.name = vs.map variableName
  | _, _, .nil => rfl
  | _, _, .cons h hs => by
      rw [List.map_cons, List.map_cons, matching_names hs, h.name]
      rfl

theorem walkFields_accepts (tokens : List Token) (ns : Option String) (record : String) :
    ∀ (ds : List FieldDecl) (seen : List String), Accepts (walkFields tokens ns record seen ds)
      ((∀ f ∈ ds, TypeOk ns f.type ∧ ∀ v ∈ f.vars, VariableOk f.type v) ∧
      ((ds.flatMap fun f => f.vars).map variableName).Nodup ∧
      ∀ n ∈ (ds.flatMap fun f => f.vars).map variableName, n ∉ seen)
  | [], seen => by simp only [walkFields]; exact Accepts.pure.congr (by simp)
  | d :: ds, seen => by
      simp only [walkFields]
      refine Accepts.congr ((walkField_accepts tokens ns d).bind (walkField_means tokens ns d)
        fun fs hfs => ((checkFieldNames_accepts record fs seen _).congr
          (Q := (d.vars.map variableName).Nodup ∧ ∀ n ∈ d.vars.map variableName, n ∉ seen)
          (by rw [matching_names hfs])).bind (checkFieldNames_ok record fs seen _) fun seen' hs =>
        Accepts.bind ((walkFields_accepts tokens ns record ds seen').congr
          (Q := (∀ f ∈ ds, TypeOk ns f.type ∧ ∀ v ∈ f.vars, VariableOk f.type v) ∧
            ((ds.flatMap fun f => f.vars).map variableName).Nodup ∧
            ∀ n ∈ (ds.flatMap fun f => f.vars).map variableName,
              n ∉ seen ++ d.vars.map variableName)
          (by rw [hs.1, matching_names hfs])) (Post.any _) fun _ _ => .pure) ?_
      rw [List.flatMap_cons, List.map_append, List.nodup_append]
      simp only [List.mem_append, not_or, List.forall_mem_cons]
      constructor
      · rintro ⟨h1, ⟨h2, h3⟩, ⟨h4, h5, h6⟩, -⟩
        exact ⟨⟨h1, h4⟩, ⟨h2, h5, fun a ha b hb e => (h6 b hb).2 (e ▸ ha)⟩,
          fun n hn => hn.elim (h3 n) fun hn => (h6 n hn).1⟩
      · rintro ⟨⟨h1, h4⟩, ⟨h2, h5, h6⟩, h7⟩
        exact ⟨h1, ⟨h2, fun n hn => h7 n (.inl hn)⟩,
          ⟨h4, h5, fun n hn => ⟨h7 n (.inr hn), fun hm => h6 n hm n hn rfl⟩⟩, trivial⟩

/-! ## Declarations -/

omit [CharTables] [FloatTables] [CaseTables] in
theorem legalName_accepts {name : String} {e : ReadErr} {sp : Option Span} :
    Accepts (failIf (isInvalidTypeName name) e sp) (name ∉ typeKeywords) := by
  refine Accepts.failIf.congr ?_
  rw [← Bool.not_eq_true]
  refine not_congr ?_
  simp only [isInvalidTypeName, primitiveTypeNames, invalidLogicalTypeNames, typeKeywords,
    Bool.or_eq_true, List.contains_iff_mem, List.mem_cons, List.not_mem_nil]
  grind

theorem recordIn_accepts (tokens : List Token) (ns : Option String) (d : RecordDecl) :
    Accepts (recordIn tokens ns d) (DeclOk ns (.record d)) := by
  unfold recordIn
  have hn := declaredName ns (stringAnnotation d.annots "namespace") (identifierText d.ident)
  refine Accepts.congr ((walkDoc_accepts tokens d.start).bind (Post.any _) fun _ _ =>
    (walkAnnots_accepts namedCtx (special := ["namespace", "aliases"])
      (reserved := typeAttributes) (by simp [Special, namedCtx])
      (by simp only [namedCtx, schemaReserved, typeAttributes, List.mem_cons,
            List.not_mem_nil]; grind) d.annots {}).bind
    (walkAnnots_means namedCtx ["namespace", "aliases"] (by simp [Special, namedCtx]) d.annots)
    fun p hp => legalName_accepts.bind (Post.any _) fun _ _ =>
      Accepts.bind ((walkFields_accepts tokens _ _ d.fields []).congr
        (by rw [hp.2.1 rfl])) (Post.any _) fun _ _ => .pure) ?_
  constructor
  · rintro ⟨-, h1, h2, ⟨h3, h4, -⟩, -⟩
    exact .record h1 hn h2 h3 h4
  · intro h
    cases h with
    | record h1 h2 h3 h4 h5 =>
      obtain ⟨rfl, rfl⟩ := Props.C28_names_determined h2 hn
      exact ⟨trivial, h1, h3, ⟨h4, h5, by simp⟩, trivial⟩

omit [CharTables] [FloatTables] [CaseTables] in
theorem checkSymbols_accepts : ∀ (ss : List (String × Option Span)) (seen : List String),
    Accepts (checkSymbols seen ss)
      ((ss.map symbolName).Nodup ∧ ∀ n ∈ ss.map symbolName, n ∉ seen)
  | [], seen => Accepts.pure.congr (by simp)
  | s :: ss, seen => by
      simp only [checkSymbols]
      split
      · rename_i h
        have h : symbolName s ∈ seen := by simpa [symbolName] using h
        exact Accepts.fail.congr ⟨fun h => h.elim, fun hc =>
          hc.2 (symbolName s) (List.mem_cons_self ..) h⟩
      · rename_i h
        have h : symbolName s ∉ seen := by simpa [symbolName] using h
        change Accepts (checkSymbols (seen ++ [symbolName s]) ss) _
        refine (checkSymbols_accepts ss _).congr ?_
        rw [List.map_cons, List.nodup_cons]
        simp only [List.mem_append, not_or, List.mem_cons, forall_eq_or_imp]
        constructor
        · rintro ⟨h1, h2⟩
          exact ⟨⟨fun hk => (h2 _ hk).2.1 rfl, h1⟩, h, fun x hx => (h2 x hx).1⟩
        · rintro ⟨⟨h1, h2⟩, -, h3⟩
          exact ⟨h2, fun x hx => ⟨h3 x hx, fun e => h1 (e ▸ hx), by simp⟩⟩

omit [CharTables] [FloatTables] [CaseTables] in
theorem checkEnumDefault_accepts (symbols : List String)
    (d : Option (String × Option Span)) :
    Accepts (checkEnumDefault symbols d) (∀ s, d = some s → symbolName s ∈ symbols) := by
  unfold checkEnumDefault
  split
  · exact Accepts.pure.congr (by simp)
  · rename_i s
    split
    · rename_i h
      exact Accepts.pure.congr ⟨by rintro - s ⟨⟩; simpa [symbolName] using h, fun _ => trivial⟩
    · rename_i h
      exact Accepts.fail.congr ⟨fun h => h.elim, fun h' => h (by
        simpa [symbolName] using h' s rfl)⟩

theorem walkEnum_accepts (tokens : List Token) (ns : Option String) (d : EnumDecl) :
    Accepts (walkEnum tokens ns d) (DeclOk ns (.enum d)) := by
  unfold walkEnum
  have hn := declaredName ns (stringAnnotation d.annots "namespace") (identifierText d.ident)
  refine Accepts.congr ((walkDoc_accepts tokens d.start).bind (Post.any _) fun _ _ =>
    (walkAnnots_accepts enumCtx (special := ["namespace", "aliases"])
      (reserved := enumAttributes) (by simp [Special, enumCtx])
      (by simp only [enumCtx, enumReserved, enumAttributes, typeAttributes, List.mem_cons,
            List.not_mem_nil]; grind) d.annots {}).bind (Post.any _)
    fun p _ => legalName_accepts.bind (Post.any _) fun _ _ =>
      (checkSymbols_accepts d.symbols []).bind (checkSymbols_ok d.symbols []) fun sy hs =>
      Accepts.bind ((checkEnumDefault_accepts sy d.default).congr
        (by rw [hs.1, List.nil_append])) (Post.any _) fun _ _ => .pure) ?_
  constructor
  · rintro ⟨-, h1, h2, ⟨h3, -⟩, h4, -⟩
    exact .enum h1 hn h2 h3 h4
  · intro h
    cases h with
    | enum h1 h2 h3 h4 h5 =>
      obtain ⟨rfl, rfl⟩ := Props.C28_names_determined h2 hn
      exact ⟨trivial, h1, h3, ⟨h4, by simp⟩, h5, trivial⟩

theorem walkFixed_accepts (tokens : List Token) (ns : Option String) (d : FixedDecl) :
    Accepts (walkFixed tokens ns d) (DeclOk ns (.fixed d)) := by
  unfold walkFixed
  have hn := declaredName ns (stringAnnotation d.annots "namespace") (identifierText d.ident)
  refine Accepts.congr ((walkDoc_accepts tokens d.start).bind (Post.any _) fun _ _ =>
    (walkAnnots_accepts namedCtx (special := ["namespace", "aliases"])
      (reserved := typeAttributes) (by simp [Special, namedCtx])
      (by simp only [namedCtx, schemaReserved, typeAttributes, List.mem_cons,
            List.not_mem_nil]; grind) d.annots {}).bind (Post.any _)
    fun p _ => legalName_accepts.bind (Post.any _)
      (Q := ∃ size, parseIntegerAsU32 d.size = some size) fun _ _ => ?_) ?_
  · split
    · rename_i h; exact Accepts.fail.congr (by simp [h])
    · rename_i n h; exact Accepts.pure.congr (by simp [h])
  constructor
  · rintro ⟨-, h1, h2, ⟨n, h3⟩⟩
    exact .fixed h1 hn h2 h3
  · intro h
    cases h with
    | fixed h1 h2 h3 h4 =>
      obtain ⟨rfl, rfl⟩ := Props.C28_names_determined h2 hn
      exact ⟨trivial, h1, h3, _, h4⟩

theorem namedIn_accepts (tokens : List Token) (ns : Option String) (d : NamedDecl) :
    Accepts (namedIn tokens ns d) (DeclOk ns d) := by
  cases d with
  | record d => exact recordIn_accepts tokens ns d
  | enum d => exact walkEnum_accepts tokens ns d
  | fixed d => exact walkFixed_accepts tokens ns d

/-! ## Messages -/

theorem walkParams_accepts (tokens : List Token) (ns : Option String) (message : String) :
    ∀ (ps : List Param) (seen : List String), Accepts (walkParams tokens ns message seen ps)
      ((∀ p ∈ ps, TypeOk ns p.type ∧ VariableOk p.type p.var) ∧
      (ps.map fun p => variableName p.var).Nodup ∧
      ∀ n ∈ ps.map fun p => variableName p.var, n ∉ seen)
  | [], seen => by simp only [walkParams]; exact Accepts.pure.congr (by simp)
  | p :: ps, seen => by
      simp only [walkParams]
      refine Accepts.congr ((walkDoc_accepts tokens p.start).bind (walkDoc_means tokens p.start)
        fun doc hd => (walkFullType_accepts ns p.type).bind
        ((walkFullType_out ns p.type).and (walkFullType_means ns p.type)) fun t ht =>
        (walkVariable_accepts tokens ht.2 doc p.var).bind
        (walkVariable_means tokens ht.1 ht.2 p.start doc hd p.var)
        (Q := variableName p.var ∉ seen ∧
          (∀ p ∈ ps, TypeOk ns p.type ∧ VariableOk p.type p.var) ∧
          (ps.map fun p => variableName p.var).Nodup ∧
          ∀ n ∈ ps.map fun p => variableName p.var, n ∉ seen ++ [variableName p.var])
        fun f hf => ?_) ?_
      · have hn : f.name = variableName p.var := hf.name
        rw [hn]
        split
        · rename_i h
          have h : variableName p.var ∈ seen := by simpa using h
          exact Accepts.fail.congr ⟨fun h => h.elim, fun hc => hc.1 h⟩
        · rename_i h
          have h : variableName p.var ∉ seen := by simpa using h
          exact Accepts.congr ((walkParams_accepts tokens ns message ps _).bind (Post.any _)
            fun _ _ => .pure) ⟨fun hc => ⟨h, hc.1⟩, fun hc => ⟨hc.2, trivial⟩⟩
      · rw [List.map_cons, List.nodup_cons]
        simp only [List.mem_append, not_or, List.forall_mem_cons, List.mem_singleton]
        constructor
        · rintro ⟨-, h1, h2, h3, h4, h5, h6⟩
          exact ⟨⟨⟨h1, h2⟩, h4⟩, ⟨fun hc => (h6 _ hc).2 rfl, h5⟩, h3, fun n hn => (h6 n hn).1⟩
        · rintro ⟨⟨⟨h1, h2⟩, h3⟩, ⟨h4, h5⟩, h6, h7⟩
          exact ⟨trivial, h1, h2, h6, h3, h5, fun n hn => ⟨h7 n hn, fun e => h4 (e ▸ hn)⟩⟩

omit [CharTables] [CaseTables] in
theorem plainMeans_null {ns : Option String} {t : PlainType} {s : Schema} (h : PlainMeans ns t s) :
    s.isNull = true ↔ ∃ sp, t = .prim (.prim .null) false sp := by
  rw [isNull_iff]
  cases h with
  | array h => simp
  | map h => simp
  | union h => simp
  | prim hk ho =>
    cases ho with
    | no => rw [hk.facts.1]; simp
    | yes hn => simp
  | named hr ho => cases ho <;> simp

theorem walkMessage_accepts (tokens : List Token) (ns : Option String) (d : MessageDecl) :
    Accepts (walkMessage tokens ns d) (MessageDeclOk ns d) := by
  unfold walkMessage
  refine Accepts.congr ((walkDoc_accepts tokens d.start).bind (Post.any _) fun _ _ =>
    (walkAnnots_accepts messageCtx (special := []) (reserved := messageAttributes)
      (by simp [Special, messageCtx])
      (by simp only [messageCtx, messageReserved, messageAttributes, List.mem_cons,
            List.not_mem_nil]; grind) d.annots {}).bind
    (walkAnnots_keys messageCtx (by simp [Special, messageCtx]) d.annots) fun p hp =>
    Accepts.bind (P := ∀ t, d.result = some t → PlainOk ns t) (R := fun resp => match d.result with
      | none => resp = .prim .null
      | some t => PlainMeans ns t resp) ?_ ?_ fun resp hr =>
    Accepts.bind ((Accepts.failIf).congr
      (Q := d.annots ≠ [] → ∀ ident span o, d.result ≠ some (.named ident span o)) ?_)
      (Post.any _) fun _ _ =>
    (walkParams_accepts tokens ns _ d.params []).bind (Post.any _) fun req _ =>
    Accepts.bind ((Accepts.failIf).congr (Q := d.oneway = true → d.result = none ∨
      ∃ sp, d.result = some (.prim (.prim .null) false sp)) ?_) (Post.any _) fun _ _ => .pure) ?_
  · unfold walkResult
    cases d.result with
    | none => exact Accepts.pure.congr (by simp)
    | some t => exact (walkPlainType_accepts ns t).congr (by simp)
  · unfold walkResult
    cases d.result with
    | none => exact .pure rfl
    | some t => exact (walkPlainType_means ns t).mono fun _ h => h.1
  · have h1 : p.props.isEmpty = false ↔ d.annots ≠ [] := by
      rw [hp.1]; cases d.annots <;> simp
    have h2 : isTypeReference resp = true ↔ ∃ ident span o, d.result = some (.named ident span o) := by
      cases hres : d.result with
      | none => rw [hres] at hr; simp only at hr; subst hr; simp [isTypeReference]
      | some t => rw [hres] at hr; rw [isTypeReference_iff hr]; simp
    rw [Bool.and_eq_false_imp, Bool.not_eq_true', h1, ← Bool.not_eq_true, h2]
    simp
  · have h2 : resp.isNull = true ↔ d.result = none ∨
        ∃ sp, d.result = some (.prim (.prim .null) false sp) := by
      cases hres : d.result with
      | none => rw [hres] at hr; simp only at hr; subst hr; simp [Schema.isNull]
      | some t => rw [hres] at hr; rw [plainMeans_null hr]; simp
    rw [Bool.and_eq_false_imp, Bool.not_eq_false', h2]
  · constructor
    · rintro ⟨-, h1, h2, h3, ⟨h4, h5, -⟩, h6, -⟩
      exact ⟨h1, h2, h3, h4, h5, h6⟩
    · rintro ⟨h1, h2, h3, h4, h5, h6⟩
      exact ⟨trivial, h1, h2, h3, ⟨h4, h5, by simp⟩, h6, trivial⟩

/-! ## Files -/

theorem bodyIn_accepts (tokens : List Token) (ns : Option String) :
    ∀ (items : List BodyItem) (ms : List (String × Message)), Accepts (bodyIn tokens ns ms items)
      ((∀ t span, .named t span ∈ items → DeclOk ns t) ∧
        ∀ m, .message m ∈ items → MessageDeclOk ns m)
  | [], ms => by simp only [bodyIn]; exact Accepts.pure.congr (by simp)
  | .import_ i :: items, ms => by
      simp only [bodyIn]
      exact Accepts.congr ((bodyIn_accepts tokens ns items ms).bind (Post.any _) fun _ _ => .pure)
        (by simp)
  | .named d span :: items, ms => by
      simp only [bodyIn]
      refine Accepts.congr ((namedIn_accepts tokens ns d).bind (Post.any _) fun _ _ =>
        (bodyIn_accepts tokens ns items ms).bind (Post.any _) fun _ _ => .pure) ?_
      simp only [List.mem_cons, reduceCtorEq, false_or, BodyItem.named.injEq]
      constructor
      · rintro ⟨h1, ⟨h2, h3⟩, -⟩
        exact ⟨fun t span h => h.elim (fun e => e.1 ▸ h1) (h2 t span), h3⟩
      · rintro ⟨h1, h2⟩
        exact ⟨h1 _ _ (.inl ⟨rfl, rfl⟩), ⟨fun t span h => h1 t span (.inr h), h2⟩, trivial⟩
  | .message m :: items, ms => by
      simp only [bodyIn]
      refine Accepts.congr ((walkMessage_accepts tokens ns m).bind (Post.any _) fun nm _ =>
        bodyIn_accepts tokens ns items _) ?_
      simp only [List.mem_cons, reduceCtorEq, false_or, BodyItem.message.injEq]
      constructor
      · rintro ⟨h1, h2, h3⟩
        exact ⟨h2, fun m h => h.elim (fun e => e ▸ h1) (h3 m)⟩
      · rintro ⟨h1, h2⟩
        exact ⟨h2 _ (.inl rfl), h1, fun m h => h2 m (.inr h)⟩

theorem itemsIn_accepts (tokens : List Token) (ns : Option String) : ∀ items : List FileItem,
    Accepts (itemsIn tokens ns items) (∀ t span, .named t span ∈ items → DeclOk ns t)
  | [] => by simp only [itemsIn]; exact Accepts.pure.congr (by simp)
  | .import_ i :: items => by
      simp only [itemsIn]
      exact Accepts.congr ((itemsIn_accepts tokens ns items).bind (Post.any _) fun _ _ => .pure)
        (by simp)
  | .named d span :: items => by
      simp only [itemsIn]
      refine Accepts.congr ((namedIn_accepts tokens ns d).bind (Post.any _) fun _ _ =>
        (itemsIn_accepts tokens ns items).bind (Post.any _) fun _ _ => .pure) ?_
      simp only [List.mem_cons, FileItem.named.injEq]
      constructor
      · rintro ⟨h1, h2, -⟩
        exact fun t span h => h.elim (fun e => e.1 ▸ h1) (h2 t span)
      · intro h1
        exact ⟨h1 _ _ (.inl ⟨rfl, rfl⟩), fun t span h => h1 t span (.inr h), trivial⟩

theorem fileIn_accepts (tokens : List Token) (ast : FileAst) :
    Accepts (fileIn tokens ast) (FileOk ast) := by
  cases ast with
  | protocol d =>
    simp only [fileIn, protocolIn]
    have hn := declaredName none (stringAnnotation d.annots "namespace") (identifierText d.ident)
    rw [Option.or_none] at hn
    refine Accepts.congr (Accepts.bind ((walkDoc_accepts tokens d.start).bind (Post.any _)
      fun _ _ => (walkAnnots_accepts protocolCtx (special := ["namespace"])
      (reserved := protocolAttributes) (by simp [Special, protocolCtx])
      (by simp only [protocolCtx, protocolReserved, protocolAttributes, List.mem_cons,
            List.not_mem_nil]; grind) d.annots {}).bind
      (walkAnnots_means protocolCtx ["namespace"] (by simp [Special, protocolCtx]) d.annots)
      fun p hp => legalName_accepts.bind (Post.any _) fun _ _ =>
        Accepts.bind ((bodyIn_accepts tokens _ d.body []).congr
        (by rw [hp.2.1 rfl])) (Post.any _) fun _ _ => .pure) (Post.any _) fun _ _ => .pure) ?_
    constructor
    · rintro ⟨⟨-, h1, h2, ⟨h3, h4⟩, -⟩, -⟩
      exact .protocol h1 hn h2 h3 h4
    · intro h
      cases h with
      | protocol h1 h2 h3 h4 h5 =>
        obtain ⟨rfl, rfl⟩ := Props.C28_names_determined h2 hn
        exact ⟨⟨trivial, h1, h3, ⟨h4, h5⟩, trivial⟩, trivial⟩
  | schema n main body =>
    simp only [fileIn]
    refine Accepts.congr ((itemsIn_accepts tokens _ body).bind (Post.any _)
      (Q := ∀ t, main = some t → TypeOk (n.map identifierText) t) fun r _ => ?_)
      ⟨fun h => .schema h.1 h.2, fun h => by
        cases h with
        | schema h1 h2 => exact ⟨h1, h2⟩⟩
    cases main with
    | none => exact Accepts.pure.congr (by simp)
    | some t =>
      exact Accepts.congr ((walkFullType_accepts _ t).bind (Post.any _) fun _ _ => .pure) (by simp)

theorem readFile_accepts (tokens : List Token) (ast : FileAst) :
    (∃ r, readFile tokens ast = .ok r) ↔ FileOk ast := by
  have h := fileIn_accepts tokens ast { consumed := [], warnings := [] }
  rw [← walkFile_eq] at h
  rw [← h]
  unfold readFile
  cases walkFile tokens ast { consumed := [], warnings := [] } with
  | error e => simp
  | ok r => simp

end

end Avdl
