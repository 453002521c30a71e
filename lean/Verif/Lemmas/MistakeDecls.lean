import Verif.Lemmas.Mistake
/-!
# Which error the reader reports: declarations and files
-/

namespace Avdl
open W Spec

section
variable [CharTables] [FloatTables] [CaseTables]

/-! ## Fields -/

omit [CharTables] [FloatTables] [CaseTables] in
/-- The order of the members of an optional type does not change the explanation. -/
theorem fixOptional_explains {j : Json} {s : Schema} {d : Option Json} {r : DefaultReason}
    (h : Props.Explains j (fixOptional s d) r) : Props.Explains j s r := by
  have hv := fixOptional_valid s d j
  unfold fixOptional at h hv
  split at h
  · split at h
    · exact h
    · exact h
    · simp only at hv
      generalize hs : Schema.union _ true = s' at h
      cases h with
      | mismatch h1 h2 h3 h4 =>
        subst hs
        cases h3
        exact .mismatch (hv ▸ h1) (fun _ _ _ _ _ _ _ he => by cases he) .union h4
      | _ => cases hs
  · exact h

/-- A default value that does not fit. -/
def DefaultMistake (ns : Option String) (type : FullType) (v : VarDecl) (d : Option Json)
    (e : Fault) : Prop :=
  ∃ j s r, d = some j ∧ ¬ FitsType j type ∧ TypeMeans ns type s ∧ Props.Explains j s r ∧
    e = ⟨.invalidDefault (variableName v) r, v.defaultSpan⟩

omit [CharTables] [CaseTables] in
theorem checkDefault_rejects {ns : Option String} {type : FullType} {t : Schema}
    (hm : TypeMeans ns type t) (v : VarDecl) (d : Option Json) :
    Rejects (checkDefault (identifierText v.ident) v.defaultSpan d (fixOptional t d))
      (DefaultMistake ns type v d) := by
  unfold checkDefault
  cases d with
  | none => exact Rejects.pure.congr fun e => ⟨fun h => h.elim, fun ⟨_, _, _, h, _⟩ => by cases h⟩
  | some j =>
    have := validateDefault_none_iff (fixOptional t (some j)) j
    rw [fixOptional_valid, valid_iff_fitsType ns type t hm j] at this
    simp only
    split
    · rename_i h
      exact Rejects.pure.congr fun e => ⟨fun h => h.elim, fun ⟨_, _, _, h1, h2, _⟩ => by
        cases h1; exact h2 (this.mp h)⟩
    · rename_i r h
      intro l
      refine ⟨fun e he => ?_, fun e he => ?_⟩
      · cases he
        refine ⟨j, t, r, rfl, fun hf => ?_, hm, fixOptional_explains
          (Props.C12_reason_explains _ j r h), rfl⟩
        rw [this.mpr hf] at h; cases h
      · obtain ⟨j, s, r', -, -, -, -, rfl⟩ := he
        exact ⟨_, rfl, .default⟩

omit [CharTables] [CaseTables] in
theorem walkDefault_error (d : Option JVal) (e : Fault) :
    walkDefault d = .error e ↔ ∃ v, d = some v ∧ JsonMistake v e := by
  cases d with
  | none => simp [walkDefault]
  | some v =>
    simp only [walkDefault, Option.some.injEq, exists_eq_left', ← walkJson_error]
    cases walkJson v <;> simp

omit [CharTables] [FloatTables] [CaseTables] in
theorem variable_reserved (k : String) : k ∈ variableCtx.reserved ↔ k ∈ fieldAttributes := by
  simp only [variableCtx, fieldReserved, fieldAttributes, List.mem_cons, List.not_mem_nil]
  grind

theorem walkVariable_rejects (tokens : List Token) {ns : Option String} {type : FullType}
    {t : Schema} (hm : TypeMeans ns type t) (shared : Option String) (v : VarDecl) :
    Rejects (walkVariable tokens t shared v) (VariableMistake ns type v) := by
  unfold walkVariable
  refine Rejects.congr ((walkDoc_rejects tokens v.start).bind (walkDoc_accepts tokens v.start)
    (Post.any _) fun _ _ =>
    (walkAnnots_rejects variableCtx (special := ["aliases", "order"])
      (reserved := fieldAttributes) (by simp [Special, variableCtx]) variable_reserved
      v.annots {}).bind
    (walkAnnots_accepts variableCtx (special := ["aliases", "order"])
      (reserved := fieldAttributes) (by simp [Special, variableCtx]) variable_reserved
      v.annots {}) (Post.any _) fun p _ =>
    Rejects.lift.bind Accepts.lift (Post.lift fun d hd => hd) fun d hd =>
    Rejects.congr (Rejects.bind (checkDefault_rejects hm v d)
      (checkDefault_accepts hm (identifierText v.ident) v.defaultSpan d) (Post.any _) fun _ _ => .pure)
      (G := fun e => ∃ d, walkDefault v.default = .ok d ∧ DefaultMistake ns type v d e)
      fun e => ?_) fun e => ?_
  · rw [hd]
    simp
  · rw [walkDefault_error]
    constructor
    · rintro (h | ⟨-, h | ⟨h1, ⟨x, hx, h⟩ | ⟨-, d, hd, j, s, r, rfl, h2, h3, h4, rfl⟩⟩⟩)
      · exact h.elim
      · exact .annots h
      · exact .value h1 hx h
      · unfold walkDefault at hd
        split at hd
        · cases hd
        · rename_i x hx
          cases hj : walkJson x with
          | error e => rw [hj] at hd; cases hd
          | ok j =>
            rw [hj] at hd; cases hd
            exact .default h1 hx hj h2 h3 h4
    · intro h
      cases h with
      | annots h => exact .inr ⟨trivial, .inl h⟩
      | value h1 hx h => exact .inr ⟨trivial, .inr ⟨h1, .inl ⟨_, hx, h⟩⟩⟩
      | default h1 hx hj h2 h3 h4 =>
        rename_i x j s r
        have hd : walkDefault v.default = .ok (some j) := by rw [hx]; simp only [walkDefault, hj]
        exact .inr ⟨trivial, .inr ⟨h1, .inr ⟨⟨_, hd⟩, _, hd, _, _, _, rfl, h2, h3, h4, rfl⟩⟩⟩

theorem walkVariables_rejects (tokens : List Token) {ns : Option String} {type : FullType}
    {t : Schema} (hm : TypeMeans ns type t) (shared : Option String) : ∀ vs : List VarDecl,
    Rejects (walkVariables tokens t shared vs)
      (FirstBad (VariableOk type) (VariableMistake ns type) vs)
  | [] => by simp only [walkVariables]; exact Rejects.pure.congr fun e => FirstBad.nil_iff.symm
  | v :: vs => by
      simp only [walkVariables]
      refine Rejects.congr ((walkVariable_rejects tokens hm shared v).bind
        (walkVariable_accepts tokens hm shared v) (Post.any _) fun _ _ =>
        (walkVariables_rejects tokens hm shared vs).bind (walkVariables_accepts tokens hm shared vs)
        (Post.any _) fun _ _ => .pure) fun e => ?_
      rw [FirstBad.cons_iff]
      simp

theorem walkField_rejects (tokens : List Token) (ns : Option String) (d : FieldDecl) :
    Rejects (walkField tokens ns d) fun e => TypeMistake ns d.type e ∨ TypeOk ns d.type ∧
      FirstBad (VariableOk d.type) (VariableMistake ns d.type) d.vars e := by
  unfold walkField
  exact Rejects.congr ((walkDoc_rejects tokens d.start).bind (walkDoc_accepts tokens d.start)
    (Post.any _) fun doc _ => (walkFullType_rejects ns d.type).bind
      (walkFullType_accepts ns d.type) (walkFullType_means ns d.type) fun t ht =>
      walkVariables_rejects tokens ht doc d.vars) fun e => by simp

/-- The first member of a list with a name that has been there before. -/
def RepeatedIn {α : Type} (f : α → String) (seen : List String) (l : List α) (a : α) : Prop :=
  ∃ b c, l = b ++ a :: c ∧ (seen ++ b.map f).Nodup ∧ f a ∈ seen ++ b.map f

omit [CharTables] [FloatTables] [CaseTables] in
theorem repeatedIn_here {α : Type} {f : α → String} {seen : List String} {l : List α} {x : α}
    (hs : seen.Nodup) (h : f x ∈ seen) (a : α) : RepeatedIn f seen (x :: l) a ↔ a = x := by
  constructor
  · rintro ⟨b, c, h1, h2, -⟩
    cases b with
    | nil => simp only [List.nil_append, List.cons.injEq] at h1; exact h1.1.symm
    | cons y b =>
      simp only [List.cons_append, List.cons.injEq] at h1
      rw [← h1.1] at h2
      exact absurd rfl ((List.nodup_append.mp h2).2.2 _ h _ (by simp))
  · rintro rfl
    exact ⟨[], l, rfl, by simpa using hs, by simpa using h⟩

omit [CharTables] [FloatTables] [CaseTables] in
theorem repeatedIn_later {α : Type} {f : α → String} {seen : List String} {l : List α} {x : α}
    (h : f x ∉ seen) (a : α) :
    RepeatedIn f seen (x :: l) a ↔ RepeatedIn f (seen ++ [f x]) l a := by
  constructor
  · rintro ⟨b, c, h1, h2, h3⟩
    cases b with
    | nil =>
      simp only [List.nil_append, List.cons.injEq] at h1
      rw [← h1.1] at h3
      exact absurd (by simpa using h3) h
    | cons y b =>
      simp only [List.cons_append, List.cons.injEq] at h1
      obtain ⟨rfl, h1⟩ := h1
      exact ⟨b, c, h1, by simpa using h2, by simpa using h3⟩
  · rintro ⟨b, c, h1, h2, h3⟩
    exact ⟨x :: b, c, by rw [h1]; rfl, by simpa using h2, by simpa using h3⟩

omit [CharTables] [FloatTables] [CaseTables] in
theorem repeatedIn_nil {α : Type} {f : α → String} {seen : List String} {a : α} :
    ¬ RepeatedIn f seen [] a := by
  rintro ⟨b, c, h, -⟩
  cases b <;> cases h

omit [CharTables] [FloatTables] [CaseTables] in
theorem nodup_snoc {seen : List String} {x : String} (hs : seen.Nodup) (h : x ∉ seen) :
    (seen ++ [x]).Nodup := by
  refine List.nodup_append.mpr ⟨hs, by simp, ?_⟩
  intro a ha b hb e
  simp only [List.mem_singleton] at hb
  exact h (hb ▸ e ▸ ha)

omit [CharTables] [FloatTables] [CaseTables] in
theorem checkFieldNames_rejects (record : String) : ∀ (vs : List VarDecl) (fs : List Field)
    {seen : List String}, seen.Nodup → fs.map Field.name = vs.map variableName →
    Rejects (checkFieldNames record seen fs (vs.map VarDecl.identSpan)) fun e =>
      ∃ v, RepeatedIn variableName seen vs v ∧
        e = ⟨.duplicateField (variableName v) record, v.identSpan⟩
  | [], [], seen, hs, _ => Rejects.pure.congr fun e =>
      ⟨fun h => h.elim, fun ⟨_, h, _⟩ => (repeatedIn_nil h).elim⟩
  | v :: vs, [], _, _, hn => by cases hn
  | [], f :: fs, _, _, hn => by cases hn
  | v :: vs, f :: fs, seen, hs, hn => by
      simp only [List.map_cons, List.cons.injEq] at hn
      simp only [checkFieldNames, hn.1, List.map_cons, List.tail_cons]
      split
      · rename_i h
        have h : variableName v ∈ seen := by simpa using h
        exact Rejects.fail.congr fun e => by
          simp only [repeatedIn_here hs h, exists_eq_left]
          rfl
      · rename_i h
        have h : variableName v ∉ seen := by simpa using h
        exact (checkFieldNames_rejects record vs fs (nodup_snoc hs h) hn.2).congr
          fun e => by simp only [repeatedIn_later h]

omit [CharTables] in
theorem fieldsMistake_cons {ns : Option String} {record : String} {before : List String}
    {f : FieldDecl} {fs : List FieldDecl} {e : Fault} :
    FieldsMistake ns record before (f :: fs) e ↔ FieldMistake ns record before f e ∨
      ((TypeOk ns f.type ∧ ∀ v ∈ f.vars, VariableOk f.type v) ∧
        (before ++ f.vars.map variableName).Nodup ∧
        FieldsMistake ns record (before ++ f.vars.map variableName) fs e) :=
  ⟨fun h => by
    cases h with
    | here h => exact .inl h
    | later h1 h2 h3 h4 => exact .inr ⟨⟨h1, h2⟩, h3, h4⟩,
    fun h => h.elim .here fun h => .later h.1.1 h.1.2 h.2.1 h.2.2⟩

omit [CharTables] in
theorem fieldMistake_iff {ns : Option String} {record : String} {before : List String}
    {f : FieldDecl} {e : Fault} :
    FieldMistake ns record before f e ↔ (TypeMistake ns f.type e ∨ TypeOk ns f.type ∧
      FirstBad (VariableOk f.type) (VariableMistake ns f.type) f.vars e) ∨
      ((TypeOk ns f.type ∧ ∀ v ∈ f.vars, VariableOk f.type v) ∧
      ∃ v, RepeatedIn variableName before f.vars v ∧
        e = ⟨.duplicateField (variableName v) record, v.identSpan⟩) := by
  constructor
  · intro h
    cases h with
    | type h => exact .inl (.inl h)
    | var h1 h => exact .inl (.inr ⟨h1, h⟩)
    | repeated h1 h2 h3 h4 h5 => exact .inr ⟨⟨h1, h2⟩, _, ⟨_, _, h3, h4, h5⟩, rfl⟩
  · rintro ((h | ⟨h1, h⟩) | ⟨⟨h1, h2⟩, x, ⟨b, c, h3, h4, h5⟩, rfl⟩)
    · exact .type h
    · exact .var h1 h
    · exact .repeated h1 h2 h3 h4 h5

theorem walkFields_rejects (tokens : List Token) (ns : Option String) (record : String) :
    ∀ (ds : List FieldDecl) {seen : List String}, seen.Nodup →
      Rejects (walkFields tokens ns record seen ds) (FieldsMistake ns record seen ds)
  | [], seen, _ => by
      simp only [walkFields]
      exact Rejects.pure.congr fun e => ⟨fun h => h.elim, fun h => by cases h⟩
  | d :: ds, seen, hs => by
      simp only [walkFields]
      refine Rejects.congr ((walkField_rejects tokens ns d).bind (walkField_accepts tokens ns d)
        (walkField_means tokens ns d) fun fs hfs =>
        Rejects.bind (checkFieldNames_rejects record d.vars fs hs (matching_names hfs))
          ((checkFieldNames_accepts record fs seen _).congr
          (Q := (seen ++ d.vars.map variableName).Nodup) ?_)
          (checkFieldNames_ok record fs seen _)
          fun seen' hs' => Rejects.congr (Rejects.bind
            (walkFields_rejects tokens ns record ds (hs'.2 hs))
            (walkFields_accepts tokens ns record ds seen') (Post.any _) fun _ _ => .pure)
            (G := FieldsMistake ns record (seen ++ d.vars.map variableName) ds) fun e => ?_)
        fun e => ?_
      · rw [matching_names hfs, List.nodup_append]
        exact ⟨fun h => ⟨hs, h.1, fun a ha b hb e => h.2 b hb (e ▸ ha)⟩,
          fun h => ⟨h.2.1, fun n hn hm => h.2.2 n hm n hn rfl⟩⟩
      · rw [hs'.1, matching_names hfs]
        simp
      · rw [fieldsMistake_cons, fieldMistake_iff]
        constructor
        · rintro (h | ⟨h1, h | h⟩)
          · exact .inl (.inl h)
          · exact .inl (.inr ⟨h1, h⟩)
          · exact .inr ⟨h1, h⟩
        · rintro ((h | ⟨h1, h⟩) | ⟨h1, h⟩)
          · exact .inl h
          · exact .inr ⟨h1, .inl h⟩
          · exact .inr ⟨h1, .inr h⟩

/-! ## Declarations -/

omit [CharTables] [FloatTables] [CaseTables] in
theorem legalName_rejects {name : String} {e0 : ReadErr} {sp : Option Span} :
    Rejects (failIf (isInvalidTypeName name) e0 sp) fun e =>
      e = ⟨e0, sp⟩ ∧ name ∈ typeKeywords := by
  refine (Rejects.of_accepts (legalName_accepts (name := name) (e := e0)) (e0 := ⟨e0, sp⟩)
    fun l e h => ?_).congr fun e => by rw [Classical.not_not]
  unfold failIf at h
  split at h
  · cases h; rfl
  · cases h

omit [CharTables] [FloatTables] [CaseTables] in
theorem named_reserved (k : String) : k ∈ namedCtx.reserved ↔ k ∈ typeAttributes := by
  simp only [namedCtx, schemaReserved, typeAttributes, List.mem_cons, List.not_mem_nil]
  grind

omit [CharTables] [FloatTables] [CaseTables] in
theorem enum_reserved (k : String) : k ∈ enumCtx.reserved ↔ k ∈ enumAttributes := by
  simp only [enumCtx, enumReserved, enumAttributes, typeAttributes, List.mem_cons,
    List.not_mem_nil]
  grind

theorem recordIn_rejects (tokens : List Token) (ns : Option String) (d : RecordDecl) :
    Rejects (recordIn tokens ns d) (DeclMistake ns (.record d)) := by
  unfold recordIn
  have hn := declaredName ns (stringAnnotation d.annots "namespace") (identifierText d.ident)
  refine Rejects.congr ((walkDoc_rejects tokens d.start).bind (walkDoc_accepts tokens d.start)
    (Post.any _) fun _ _ =>
    (walkAnnots_rejects namedCtx (special := ["namespace", "aliases"])
      (reserved := typeAttributes) (by simp [Special, namedCtx]) named_reserved d.annots {}).bind
    (walkAnnots_accepts namedCtx (special := ["namespace", "aliases"])
      (reserved := typeAttributes) (by simp [Special, namedCtx]) named_reserved d.annots {})
    (walkAnnots_means namedCtx ["namespace", "aliases"] (by simp [Special, namedCtx]) d.annots)
    fun p hp => legalName_rejects.bind legalName_accepts (Post.any _) fun _ _ =>
      Rejects.congr (Rejects.bind (walkFields_rejects tokens _ _ d.fields List.nodup_nil)
        (walkFields_accepts tokens _ _ d.fields []) (Post.any _) fun _ _ => .pure)
      (G := FieldsMistake ((computeNamespace (identifierText d.ident)
        (stringAnnotation d.annots "namespace")).or ns) (extractName (identifierText d.ident)) []
        d.fields) fun e => by rw [hp.2.1 rfl]; simp) fun e => ?_
  constructor
  · rintro (h | ⟨-, h | ⟨h1, ⟨rfl, h2⟩ | ⟨h2, h3⟩⟩⟩)
    · exact h.elim
    · exact .recordAnnots h
    · exact .recordName h1 hn h2
    · exact .field h1 hn h2 h3
  · intro h
    cases h with
    | recordAnnots h => exact .inr ⟨trivial, .inl h⟩
    | recordName h1 h2 h3 =>
      obtain ⟨rfl, rfl⟩ := Props.C28_names_determined h2 hn
      exact .inr ⟨trivial, .inr ⟨h1, .inl ⟨rfl, h3⟩⟩⟩
    | field h1 h2 h3 h4 =>
      obtain ⟨rfl, rfl⟩ := Props.C28_names_determined h2 hn
      exact .inr ⟨trivial, .inr ⟨h1, .inr ⟨h3, h4⟩⟩⟩

omit [CharTables] [FloatTables] [CaseTables] in
theorem checkSymbols_rejects : ∀ (ss : List (String × Option Span)) {seen : List String},
    seen.Nodup → Rejects (checkSymbols seen ss) fun e =>
      ∃ s, RepeatedIn symbolName seen ss s ∧ e = ⟨.duplicateSymbol (symbolName s), s.2⟩
  | [], seen, hs => Rejects.pure.congr fun e =>
      ⟨fun h => h.elim, fun ⟨_, h, _⟩ => (repeatedIn_nil h).elim⟩
  | s :: ss, seen, hs => by
      simp only [checkSymbols]
      split
      · rename_i h
        have h : symbolName s ∈ seen := by simpa [symbolName] using h
        exact Rejects.fail.congr fun e => by
          simp only [repeatedIn_here hs h, exists_eq_left]
          rfl
      · rename_i h
        have h : symbolName s ∉ seen := by simpa [symbolName] using h
        exact (checkSymbols_rejects ss (nodup_snoc hs h)).congr
          fun e => by simp only [repeatedIn_later h]

omit [CharTables] [FloatTables] [CaseTables] in
theorem checkEnumDefault_rejects (symbols : List String) (d : Option (String × Option Span)) :
    Rejects (checkEnumDefault symbols d) fun e => ∃ s, d = some s ∧
      symbolName s ∉ symbols ∧ e = ⟨.defaultNotASymbol (symbolName s), s.2⟩ := by
  unfold checkEnumDefault
  split
  · exact Rejects.pure.congr (by simp)
  · rename_i s
    split
    · rename_i h
      have h : symbolName s ∈ symbols := by simpa [symbolName] using h
      exact Rejects.pure.congr fun e => ⟨fun h => h.elim, by rintro ⟨s, ⟨⟩, h', -⟩; exact h' h⟩
    · rename_i h
      have h : symbolName s ∉ symbols := by simpa [symbolName] using h
      exact Rejects.fail.congr fun e => ⟨fun he => ⟨s, rfl, h, he⟩, by rintro ⟨s, ⟨⟩, -, rfl⟩; rfl⟩

theorem walkEnum_rejects (tokens : List Token) (ns : Option String) (d : EnumDecl) :
    Rejects (walkEnum tokens ns d) (DeclMistake ns (.enum d)) := by
  unfold walkEnum
  have hn := declaredName ns (stringAnnotation d.annots "namespace") (identifierText d.ident)
  refine Rejects.congr ((walkDoc_rejects tokens d.start).bind (walkDoc_accepts tokens d.start)
    (Post.any _) fun _ _ =>
    (walkAnnots_rejects enumCtx (special := ["namespace", "aliases"])
      (reserved := enumAttributes) (by simp [Special, enumCtx]) enum_reserved d.annots {}).bind
    (walkAnnots_accepts enumCtx (special := ["namespace", "aliases"])
      (reserved := enumAttributes) (by simp [Special, enumCtx]) enum_reserved d.annots {})
    (Post.any _)
    fun p _ => legalName_rejects.bind legalName_accepts (Post.any _) fun _ _ =>
      (checkSymbols_rejects d.symbols List.nodup_nil).bind (checkSymbols_accepts d.symbols [])
      (checkSymbols_ok d.symbols []) fun sy hs =>
      Rejects.congr (Rejects.bind (checkEnumDefault_rejects sy d.default)
        (checkEnumDefault_accepts sy d.default) (Post.any _) fun _ _ => .pure)
        (G := fun e => ∃ s, d.default = some s ∧ symbolName s ∉ d.symbols.map symbolName ∧
          e = ⟨.defaultNotASymbol (symbolName s), s.2⟩)
        fun e => by rw [hs.1, List.nil_append]; simp [symbolName]) fun e => ?_
  constructor
  · rintro (h | ⟨-, h | ⟨h1, ⟨rfl, h2⟩ | ⟨h2, ⟨x, ⟨b, c, h3, h4, h5⟩, rfl⟩ |
      ⟨⟨h3, -⟩, s, h4, h5, rfl⟩⟩⟩⟩)
    · exact h.elim
    · exact .enumAnnots h
    · exact .enumName h1 hn h2
    · exact .symbol h1 hn h2 h3 h4 h5
    · exact .enumDefault h1 hn h2 h3 h4 h5
  · intro h
    cases h with
    | enumAnnots h => exact .inr ⟨trivial, .inl h⟩
    | enumName h1 h2 h3 =>
      obtain ⟨rfl, rfl⟩ := Props.C28_names_determined h2 hn
      exact .inr ⟨trivial, .inr ⟨h1, .inl ⟨rfl, h3⟩⟩⟩
    | symbol h1 h2 h3 h4 h5 h6 =>
      obtain ⟨rfl, rfl⟩ := Props.C28_names_determined h2 hn
      exact .inr ⟨trivial, .inr ⟨h1, .inr ⟨h3, .inl ⟨_, ⟨_, _, h4, h5, h6⟩, rfl⟩⟩⟩⟩
    | enumDefault h1 h2 h3 h4 h5 h6 =>
      obtain ⟨rfl, rfl⟩ := Props.C28_names_determined h2 hn
      exact .inr ⟨trivial, .inr ⟨h1, .inr ⟨h3, .inr ⟨⟨h4, by simp⟩, _, h5, h6, rfl⟩⟩⟩⟩

theorem walkFixed_rejects (tokens : List Token) (ns : Option String) (d : FixedDecl) :
    Rejects (walkFixed tokens ns d) (DeclMistake ns (.fixed d)) := by
  unfold walkFixed
  have hn := declaredName ns (stringAnnotation d.annots "namespace") (identifierText d.ident)
  refine Rejects.congr ((walkDoc_rejects tokens d.start).bind (walkDoc_accepts tokens d.start)
    (Post.any _) fun _ _ =>
    (walkAnnots_rejects namedCtx (special := ["namespace", "aliases"])
      (reserved := typeAttributes) (by simp [Special, namedCtx]) named_reserved d.annots {}).bind
    (walkAnnots_accepts namedCtx (special := ["namespace", "aliases"])
      (reserved := typeAttributes) (by simp [Special, namedCtx]) named_reserved d.annots {})
    (Post.any _)
    fun p _ => legalName_rejects.bind legalName_accepts (Post.any _)
      (G := fun e => parseIntegerAsU32 d.size = none ∧
        e = ⟨.badFixedSize (extractName (identifierText d.ident)), d.sizeSpan⟩) fun _ _ => ?_) fun e => ?_
  · split
    · rename_i h; exact Rejects.fail.congr (by simp [h])
    · rename_i n h; exact Rejects.pure.congr (by simp [h])
  constructor
  · rintro (h | ⟨-, h | ⟨h1, ⟨rfl, h2⟩ | ⟨h2, h3, rfl⟩⟩⟩)
    · exact h.elim
    · exact .fixedAnnots h
    · exact .fixedName h1 hn h2
    · exact .size h1 hn h2 h3
  · intro h
    cases h with
    | fixedAnnots h => exact .inr ⟨trivial, .inl h⟩
    | fixedName h1 h2 h3 =>
      obtain ⟨rfl, rfl⟩ := Props.C28_names_determined h2 hn
      exact .inr ⟨trivial, .inr ⟨h1, .inl ⟨rfl, h3⟩⟩⟩
    | size h1 h2 h3 h4 =>
      obtain ⟨rfl, rfl⟩ := Props.C28_names_determined h2 hn
      exact .inr ⟨trivial, .inr ⟨h1, .inr ⟨h3, h4, rfl⟩⟩⟩

theorem namedIn_rejects (tokens : List Token) (ns : Option String) (d : NamedDecl) :
    Rejects (namedIn tokens ns d) (DeclMistake ns d) := by
  cases d with
  | record d => exact recordIn_rejects tokens ns d
  | enum d => exact walkEnum_rejects tokens ns d
  | fixed d => exact walkFixed_rejects tokens ns d

/-! ## Messages -/

theorem walkParams_rejects (tokens : List Token) (ns : Option String) (message : String) :
    ∀ (ps : List Param) (seen : List String), Rejects (walkParams tokens ns message seen ps)
      (ParamsMistake ns message seen ps)
  | [], seen => by
      simp only [walkParams]
      exact Rejects.pure.congr fun e => ⟨fun h => h.elim, fun h => by cases h⟩
  | p :: ps, seen => by
      simp only [walkParams]
      refine Rejects.congr ((walkDoc_rejects tokens p.start).bind (walkDoc_accepts tokens p.start)
        (walkDoc_means tokens p.start)
        fun doc hd => (walkFullType_rejects ns p.type).bind (walkFullType_accepts ns p.type)
        ((walkFullType_out ns p.type).and (walkFullType_means ns p.type)) fun t ht =>
        (walkVariable_rejects tokens ht.2 doc p.var).bind (walkVariable_accepts tokens ht.2 doc p.var)
        (walkVariable_means tokens ht.1 ht.2 p.start doc hd p.var)
        (G := fun e => (variableName p.var ∈ seen ∧
          e = ⟨.duplicateParameter (variableName p.var) message, p.span⟩) ∨ (variableName p.var ∉ seen ∧
          ParamsMistake ns message (seen ++ [variableName p.var]) ps e))
        fun f hf => ?_) fun e => ?_
      · have hn : f.name = variableName p.var := hf.name
        rw [hn]
        split
        · rename_i h
          have h : variableName p.var ∈ seen := by simpa using h
          exact Rejects.fail.congr (by simp [h])
        · rename_i h
          have h : variableName p.var ∉ seen := by simpa using h
          exact Rejects.congr ((walkParams_rejects tokens ns message ps _).bind
            (walkParams_accepts tokens ns message ps _) (Post.any _)
            fun _ _ => .pure) (by simp [h])
      · constructor
        · rintro (h | ⟨-, h | ⟨h1, h | ⟨h2, ⟨h3, rfl⟩ | ⟨h3, h4⟩⟩⟩⟩)
          · exact h.elim
          · exact .type h
          · exact .var h1 h
          · exact .repeated h1 h2 h3
          · exact .later h1 h2 h3 h4
        · intro h
          cases h with
          | type h => exact .inr ⟨trivial, .inl h⟩
          | var h1 h => exact .inr ⟨trivial, .inr ⟨h1, .inl h⟩⟩
          | repeated h1 h2 h3 => exact .inr ⟨trivial, .inr ⟨h1, .inr ⟨h2, .inl ⟨h3, rfl⟩⟩⟩⟩
          | later h1 h2 h3 h4 => exact .inr ⟨trivial, .inr ⟨h1, .inr ⟨h2, .inr ⟨h3, h4⟩⟩⟩⟩

omit [CharTables] [FloatTables] [CaseTables] in
theorem message_reserved (k : String) : k ∈ messageCtx.reserved ↔ k ∈ messageAttributes := by
  simp only [messageCtx, messageReserved, messageAttributes, List.mem_cons, List.not_mem_nil]
  grind

theorem walkResult_accepts (ns : Option String) (r : Option PlainType) :
    Accepts (walkResult ns r) (∀ t, r = some t → PlainOk ns t) := by
  unfold walkResult
  cases r with
  | none => exact Accepts.pure.congr (by simp)
  | some t => exact (walkPlainType_accepts ns t).congr (by simp)

theorem walkResult_rejects (ns : Option String) (r : Option PlainType) :
    Rejects (walkResult ns r) fun e => ∃ t, r = some t ∧ PlainMistake ns t e := by
  unfold walkResult
  cases r with
  | none => exact Rejects.pure.congr (by simp)
  | some t => exact (walkPlainType_rejects ns t).congr (by simp)

theorem walkResult_means (ns : Option String) (r : Option PlainType) :
    Post (walkResult ns r) fun resp =>
      (isTypeReference resp = true ↔ ∃ ident span o, r = some (.named ident span o)) ∧
      (resp.isNull = true ↔ r = none ∨ ∃ sp, r = some (.prim (.prim .null) false sp)) := by
  unfold walkResult
  cases r with
  | none => exact .pure (by simp [isTypeReference, Schema.isNull])
  | some t =>
    refine (walkPlainType_means ns t).mono fun s hs => ?_
    rw [isTypeReference_iff hs.1, plainMeans_null hs.1]
    simp

theorem walkMessage_rejects (tokens : List Token) (ns : Option String) (d : MessageDecl) :
    Rejects (walkMessage tokens ns d) (MessageMistake ns d) := by
  unfold walkMessage
  refine Rejects.congr ((walkDoc_rejects tokens d.start).bind (walkDoc_accepts tokens d.start)
    (Post.any _) fun _ _ =>
    (walkAnnots_rejects messageCtx (special := []) (reserved := messageAttributes)
      (by simp [Special, messageCtx]) message_reserved d.annots {}).bind
    (walkAnnots_accepts messageCtx (special := []) (reserved := messageAttributes)
      (by simp [Special, messageCtx]) message_reserved d.annots {})
    (walkAnnots_keys messageCtx (by simp [Special, messageCtx]) d.annots) fun p hp =>
    (walkResult_rejects ns d.result).bind (walkResult_accepts ns d.result)
    (walkResult_means ns d.result) fun resp hr =>
    Rejects.bind (Rejects.failIf.congr
      (G := fun e => e = ⟨.annotatedReference, d.span⟩ ∧ d.annots ≠ [] ∧ ReturnsReference d) fun e => ?_)
      (Accepts.failIf.congr (Q := d.annots ≠ [] → ¬ ReturnsReference d) ?_)
      (Post.any _) fun _ _ =>
    (walkParams_rejects tokens ns _ d.params []).bind (walkParams_accepts tokens ns _ d.params [])
      (Post.any _) fun req _ =>
    Rejects.congr (Rejects.bind Rejects.failIf Accepts.failIf (Post.any _) fun _ _ => .pure)
      (G := fun e => ∃ t, e = ⟨.onewayNotVoid (identifierText d.ident), d.span⟩ ∧ d.oneway = true ∧
        d.result = some t ∧ ∀ sp, t ≠ .prim (.prim .null) false sp) fun e => ?_) fun e => ?_
  · have h1 : p.props.isEmpty = false ↔ d.annots ≠ [] := by
      rw [hp.1]; cases d.annots <;> simp
    rw [Bool.and_eq_true, Bool.not_eq_true', h1, hr.1]
    rfl
  · have h1 : p.props.isEmpty = false ↔ d.annots ≠ [] := by
      rw [hp.1]; cases d.annots <;> simp
    rw [Bool.and_eq_false_imp, Bool.not_eq_true', h1, ← Bool.not_eq_true, hr.1]
    rfl
  · rw [Bool.and_eq_true, Bool.not_eq_true', ← Bool.not_eq_true, hr.2]
    cases d.result <;> simp
  · constructor
    · rintro (h | ⟨-, h | ⟨h1, ⟨t, h2, h⟩ | ⟨h2, ⟨rfl, h3, h4⟩ | ⟨h3, h |
        ⟨⟨h4, h5, -⟩, t, rfl, h6, h7, h8⟩⟩⟩⟩⟩)
      · exact h.elim
      · exact .annots h
      · exact .result h1 h2 h
      · exact .reference h1 h3 h4
      · exact .param h1 h2 h3 h
      · exact .oneway h1 h2 h3 h4 h5 h6 h7 h8
    · intro h
      cases h with
      | annots h => exact .inr ⟨trivial, .inl h⟩
      | result h1 h2 h => exact .inr ⟨trivial, .inr ⟨h1, .inl ⟨_, h2, h⟩⟩⟩
      | reference h1 h3 h4 =>
        refine .inr ⟨trivial, .inr ⟨h1, .inr ⟨?_, .inl ⟨rfl, h3, h4⟩⟩⟩⟩
        obtain ⟨ident, span, o, h4⟩ := h4
        intro t ht
        rw [h4] at ht; cases ht
        exact .named
      | param h1 h2 h3 h => exact .inr ⟨trivial, .inr ⟨h1, .inr ⟨h2, .inr ⟨h3, .inl h⟩⟩⟩⟩
      | oneway h1 h2 h3 h4 h5 h6 h7 h8 =>
        exact .inr ⟨trivial, .inr ⟨h1, .inr ⟨h2, .inr ⟨h3, .inr ⟨⟨h4, h5, by simp⟩, _, rfl, h6, h7,
          h8⟩⟩⟩⟩⟩

/-! ## Files -/

theorem bodyIn_rejects (tokens : List Token) (ns : Option String) :
    ∀ (items : List BodyItem) (ms : List (String × Message)), Rejects (bodyIn tokens ns ms items)
      (FirstBad (BodyItemOk ns) (BodyItemMistake ns) items)
  | [], ms => by simp only [bodyIn]; exact Rejects.pure.congr fun e => FirstBad.nil_iff.symm
  | .import_ i :: items, ms => by
      simp only [bodyIn]
      refine Rejects.congr ((bodyIn_rejects tokens ns items ms).bind
        (bodyIn_accepts tokens ns items ms) (Post.any _) fun _ _ => .pure) fun e => ?_
      rw [FirstBad.cons_iff]
      constructor
      · rintro (h | ⟨-, h⟩)
        · exact .inr ⟨.import_, h⟩
        · exact h.elim
      · rintro (h | ⟨-, h⟩)
        · cases h
        · exact .inl h
  | .named d span :: items, ms => by
      simp only [bodyIn]
      refine Rejects.congr ((namedIn_rejects tokens ns d).bind (namedIn_accepts tokens ns d)
        (Post.any _) fun _ _ => (bodyIn_rejects tokens ns items ms).bind
        (bodyIn_accepts tokens ns items ms) (Post.any _) fun _ _ => .pure) fun e => ?_
      rw [FirstBad.cons_iff]
      constructor
      · rintro (h | ⟨h1, h | ⟨-, h⟩⟩)
        · exact .inl (.named h)
        · exact .inr ⟨.named h1, h⟩
        · exact h.elim
      · rintro (h | ⟨h1, h⟩)
        · cases h with | named h => exact .inl h
        · cases h1 with | named h1 => exact .inr ⟨h1, .inl h⟩
  | .message m :: items, ms => by
      simp only [bodyIn]
      refine Rejects.congr ((walkMessage_rejects tokens ns m).bind (walkMessage_accepts tokens ns m)
        (Post.any _) fun nm _ => bodyIn_rejects tokens ns items _) fun e => ?_
      rw [FirstBad.cons_iff]
      constructor
      · rintro (h | ⟨h1, h⟩)
        · exact .inl (.message h)
        · exact .inr ⟨.message h1, h⟩
      · rintro (h | ⟨h1, h⟩)
        · cases h with | message h => exact .inl h
        · cases h1 with | message h1 => exact .inr ⟨h1, h⟩

theorem itemsIn_rejects (tokens : List Token) (ns : Option String) : ∀ items : List FileItem,
    Rejects (itemsIn tokens ns items) (FirstBad (FileItemOk ns) (FileItemMistake ns) items)
  | [] => by simp only [itemsIn]; exact Rejects.pure.congr fun e => FirstBad.nil_iff.symm
  | .import_ i :: items => by
      simp only [itemsIn]
      refine Rejects.congr ((itemsIn_rejects tokens ns items).bind
        (itemsIn_accepts tokens ns items) (Post.any _) fun _ _ => .pure) fun e => ?_
      rw [FirstBad.cons_iff]
      constructor
      · rintro (h | ⟨-, h⟩)
        · exact .inr ⟨.import_, h⟩
        · exact h.elim
      · rintro (h | ⟨-, h⟩)
        · cases h
        · exact .inl h
  | .named d span :: items => by
      simp only [itemsIn]
      refine Rejects.congr ((namedIn_rejects tokens ns d).bind (namedIn_accepts tokens ns d)
        (Post.any _) fun _ _ => (itemsIn_rejects tokens ns items).bind
        (itemsIn_accepts tokens ns items) (Post.any _) fun _ _ => .pure) fun e => ?_
      rw [FirstBad.cons_iff]
      constructor
      · rintro (h | ⟨h1, h | ⟨-, h⟩⟩)
        · exact .inl (.named h)
        · exact .inr ⟨.named h1, h⟩
        · exact h.elim
      · rintro (h | ⟨h1, h⟩)
        · cases h with | named h => exact .inl h
        · cases h1 with | named h1 => exact .inr ⟨h1, .inl h⟩

omit [CharTables] [FloatTables] [CaseTables] in
theorem protocol_reserved (k : String) : k ∈ protocolCtx.reserved ↔ k ∈ protocolAttributes := by
  simp only [protocolCtx, protocolReserved, protocolAttributes, List.mem_cons, List.not_mem_nil]
  grind

omit [CharTables] in
theorem fileItemOk_all {ns : Option String} {items : List FileItem} :
    (∀ t span, .named t span ∈ items → DeclOk ns t) ↔ ∀ x ∈ items, FileItemOk ns x := by
  constructor
  · intro h x hx
    cases x with
    | import_ i => exact .import_
    | named t span => exact .named (h t span hx)
  · intro h t span ht
    cases h _ ht with
    | named h => exact h

theorem fileIn_rejects (tokens : List Token) (ast : FileAst) :
    Rejects (fileIn tokens ast) (FileMistake ast) := by
  cases ast with
  | protocol d =>
    simp only [fileIn, protocolIn]
    have hn := declaredName none (stringAnnotation d.annots "namespace") (identifierText d.ident)
    rw [Option.or_none] at hn
    refine Rejects.congr (Rejects.map ((walkDoc_rejects tokens d.start).bind
      (walkDoc_accepts tokens d.start) (Post.any _) fun _ _ =>
      (walkAnnots_rejects protocolCtx (special := ["namespace"])
        (reserved := protocolAttributes) (by simp [Special, protocolCtx]) protocol_reserved
        d.annots {}).bind (walkAnnots_accepts protocolCtx (special := ["namespace"])
        (reserved := protocolAttributes) (by simp [Special, protocolCtx]) protocol_reserved
        d.annots {})
      (walkAnnots_means protocolCtx ["namespace"] (by simp [Special, protocolCtx]) d.annots)
      fun p hp => legalName_rejects.bind legalName_accepts (Post.any _) fun _ _ =>
        Rejects.congr (Rejects.bind (bodyIn_rejects tokens _ d.body [])
          (bodyIn_accepts tokens _ d.body []) (Post.any _) fun _ _ => .pure)
        (G := FirstBad
          (BodyItemOk (computeNamespace (identifierText d.ident)
            (stringAnnotation d.annots "namespace")))
          (BodyItemMistake (computeNamespace (identifierText d.ident)
            (stringAnnotation d.annots "namespace"))) d.body)
        fun e => by rw [hp.2.1 rfl]; simp)) fun e => ?_
    constructor
    · rintro (h | ⟨-, h | ⟨h1, ⟨rfl, h2⟩ | ⟨h2, h3⟩⟩⟩)
      · exact h.elim
      · exact .annots h
      · exact .name h1 hn h2
      · exact .body h1 hn h2 h3
    · intro h
      cases h with
      | annots h => exact .inr ⟨trivial, .inl h⟩
      | name h1 h2 h3 =>
        obtain ⟨rfl, rfl⟩ := Props.C28_names_determined h2 hn
        exact .inr ⟨trivial, .inr ⟨h1, .inl ⟨rfl, h3⟩⟩⟩
      | body h1 h2 h3 h4 =>
        obtain ⟨rfl, rfl⟩ := Props.C28_names_determined h2 hn
        exact .inr ⟨trivial, .inr ⟨h1, .inr ⟨h3, h4⟩⟩⟩
  | schema n main body =>
    simp only [fileIn]
    refine Rejects.congr ((itemsIn_rejects tokens _ body).bind (itemsIn_accepts tokens _ body)
      (Post.any _) (G := fun e => ∃ t, main = some t ∧ TypeMistake (n.map identifierText) t e)
      fun r _ => ?_) fun e => ?_
    · cases main with
      | none => exact Rejects.pure.congr (by simp)
      | some t =>
        exact Rejects.congr ((walkFullType_rejects _ t).bind (walkFullType_accepts _ t)
          (Post.any _) fun _ _ => .pure) (by simp)
    · rw [fileItemOk_all]
      constructor
      · rintro (h | ⟨h1, t, rfl, h⟩)
        · exact .item h
        · exact .main h1 h
      · intro h
        cases h with
        | item h => exact .inl h
        | main h1 h => exact .inr ⟨h1, _, rfl, h⟩

/-- The error of a file. -/
theorem readFile_error (tokens : List Token) (ast : FileAst) :
    (∀ e, readFile tokens ast = .error e → FileMistake ast e) ∧
      ∀ e, FileMistake ast e → ∃ e', readFile tokens ast = .error e' ∧ SameMistake e e' := by
  have h := fileIn_rejects tokens ast { consumed := [], warnings := [] }
  rw [← walkFile_eq] at h
  unfold readFile
  cases hw : walkFile tokens ast { consumed := [], warnings := [] } with
  | error e => rw [hw] at h; simpa using h
  | ok r => rw [hw] at h; simpa using h

end

end Avdl
