import Verif.Lemmas.Acceptance
import Verif.Lemmas.LegalName
/-!
# What the reader warns about
-/

namespace Avdl
open W Spec

/-- A successful step adds warnings about exactly the given things, in order. -/
def Warns {α : Type} (m : W α) (ns : List Notice) : Prop :=
  ∀ l a l', m l = .ok (a, l') → ∃ ws, l'.warnings = l.warnings ++ ws ∧ Matching WarnsAbout ns ws

namespace Warns

theorem pure {α : Type} {a : α} : Warns (W.pure a) [] := by
  intro l b l' h
  simp only [W.pure, Except.ok.injEq, Prod.mk.injEq] at h
  exact ⟨[], by rw [← h.2]; simp, .nil⟩

theorem fail {α : Type} {e : ReadErr} {sp : Option Span} {ns : List Notice} :
    Warns (α := α) (W.fail e sp) ns := by
  intro l b l' h; simp [W.fail] at h

theorem lift {α : Type} {x : Except Fault α} : Warns (W.lift x) [] := by
  cases x with
  | error e => exact fail
  | ok a => exact pure

theorem warn {w : WalkWarning} {n : Notice} (hw : WarnsAbout n w) : Warns (W.warn w) [n] := by
  intro l b l' h
  simp only [W.warn, Except.ok.injEq, Prod.mk.injEq] at h
  exact ⟨[w], by rw [← h.2], .cons hw .nil⟩

theorem failIf {b : Bool} {e : ReadErr} {sp : Option Span} : Warns (W.failIf b e sp) [] := by
  unfold W.failIf
  split
  · exact fail
  · exact pure

/-- One step after another, knowing something about the outcome of the first. -/
theorem bindPost {α β : Type} {m : W α} {f : α → W β} {a b c : List Notice} {R : α → Prop}
    (hm : Warns m a) (hr : Post m R) (hf : ∀ x, R x → Warns (f x) b) (h : c = a ++ b) :
    Warns (W.bind m f) c := by
  intro l y l' hl
  simp only [W.bind] at hl
  cases hml : m l with
  | error e => rw [hml] at hl; cases hl
  | ok r =>
    obtain ⟨x, l1⟩ := r
    rw [hml] at hl
    obtain ⟨ws, h1, h2⟩ := hm l x l1 hml
    obtain ⟨ws', h3, h4⟩ := hf x (hr l x l1 hml) l1 y l' hl
    refine ⟨ws ++ ws', by rw [h3, h1, List.append_assoc], ?_⟩
    rw [h]
    exact Matching.append h2 h4

theorem bind' {α β : Type} {m : W α} {f : α → W β} {a b c : List Notice}
    (hm : Warns m a) (hf : ∀ x, Warns (f x) b) (h : c = a ++ b) : Warns (W.bind m f) c :=
  hm.bindPost (Post.any _) (fun x _ => hf x) h

/-- After a step without warnings. -/
theorem skip {α β : Type} {m : W α} {f : α → W β} {b : List Notice}
    (hm : Warns m []) (hf : ∀ x, Warns (f x) b) : Warns (W.bind m f) b := hm.bind' hf rfl

/-- Before a step without warnings. -/
theorem last {α β : Type} {m : W α} {f : α → W β} {a : List Notice}
    (hm : Warns m a) (hf : ∀ x, Warns (f x) []) : Warns (W.bind m f) a := hm.bind' hf (by simp)

end Warns

theorem walkDoc_warns (tokens : List Token) (start : Nat) : Warns (walkDoc tokens start) [] := by
  intro l a l' h
  refine ⟨[], ?_, .nil⟩
  unfold walkDoc at h
  generalize extractDocComment tokens start = x at h
  obtain ⟨i, doc⟩ := x
  cases i with
  | some i =>
    simp only [W.bind, W.consume, W.pure, Except.ok.injEq, Prod.mk.injEq] at h
    rw [← h.2]; simp
  | none =>
    simp only [W.pure, Except.ok.injEq, Prod.mk.injEq] at h
    rw [← h.2]; simp

section
variable [CharTables] [FloatTables] [CaseTables]

omit [FloatTables] [CaseTables] in
theorem standardAlias_iff (s : String) :
    (dotSegments s).all isValidAvroName = true ↔ StandardAlias s := by
  rw [List.all_eq_true]
  simp only [isValidAvroName_iff]
  constructor
  · intro h
    exact ⟨dotSegments s, dotSegments_ne_nil s, h, (intercalate_dotSegments s).symm⟩
  · rintro ⟨segs, hne, h, rfl⟩
    rw [dotSegments_intercalate segs hne fun x hx => legalName_dotFree (h x hx)]
    exact h

omit [FloatTables] [CaseTables] in
theorem walkAliases_warns (sp : Option Span) (js : List Json) :
    Warns (walkAliases sp js) (oddAliases sp js) := by
  induction js with
  | nil => exact .pure
  | cons j js ih =>
    cases j with
    | str s =>
      simp only [walkAliases, oddAliases]
      have := standardAlias_iff s
      split
      · rename_i h
        rw [if_pos (this.mp h)]
        exact Warns.pure.skip fun _ => ih.last fun _ => .pure
      · rename_i h
        rw [if_neg fun hc => h (this.mpr hc)]
        exact (Warns.warn .alias).bind' (fun _ => ih.last fun _ => .pure) rfl
    | _ => exact .fail

omit [FloatTables] [CaseTables] in
/-- The warnings of one annotation with its value. -/
theorem annotStep_warns [CaseTables] (ctx : PropCtx) (acc : SchemaProps) (name : String)
    (v : Json) (sp : Option Span) : Warns (annotStep ctx acc name v sp)
      (if ctx.withAliases = true ∧ name = "aliases" then
        match v with
        | .arr l => oddAliases sp l
        | _ => []
      else []) := by
  unfold annotStep
  split
  · rename_i h
    simp only [Bool.and_eq_true, beq_iff_eq] at h
    rw [if_neg (by rw [h.2]; simp)]
    split
    · exact .pure
    · exact .fail
  · split
    · rename_i h
      simp only [Bool.and_eq_true, beq_iff_eq] at h
      rw [if_pos h]
      split
      · exact (walkAliases_warns _ _).last fun _ => .pure
      · exact .fail
    · rename_i h
      simp only [Bool.and_eq_true, beq_iff_eq] at h
      rw [if_neg h]
      split
      · split
        · exact .pure
        · exact .fail
      · split
        · exact .fail
        · exact .pure

theorem walkAnnots_warns (ctx : PropCtx) (as : List Annot) : ∀ acc,
    Warns (walkAnnots ctx acc as) (if ctx.withAliases = true then aliasNotices as else []) := by
  induction as with
  | nil =>
    intro acc
    simp only [aliasNotices, List.flatMap_nil, ite_self]
    exact .pure
  | cons a as ih =>
    intro acc
    simp only [walkAnnots]
    refine Warns.bindPost (b := if ctx.withAliases = true then aliasNotices (a :: as) else [])
      Warns.lift (Post.lift fun v hv => hv) (fun v hv =>
      (annotStep_warns ctx acc (identifierText a.name) v _).bind' (fun acc' => ih acc') ?_) rfl
    rw [aliasNotices, List.flatMap_cons, hv]
    cases ctx.withAliases with
    | false => simp
    | true => simp only [if_true, true_and]; cases v <;> rfl

omit [CharTables] [FloatTables] [CaseTables] in
theorem isNonNullableUnion_iff {ns : Option String} {t : PlainType} {s : Schema}
    [FloatTables] (h : PlainMeans ns t s) : isNonNullableUnion s = true ↔ ∃ ts, t = .union ts := by
  cases h with
  | array h => simp [isNonNullableUnion]
  | map h => simp [isNonNullableUnion]
  | union h => simp [isNonNullableUnion]
  | prim hk ho =>
    cases ho with
    | no => cases hk <;> simp [isNonNullableUnion]
    | yes hn => simp [isNonNullableUnion]
  | named hr ho => cases ho <;> simp [isNonNullableUnion]

omit [CharTables] [FloatTables] [CaseTables] in
theorem finishFullType_warns {ns : Option String} {t : PlainType} {s : Schema} {as : List Annot}
    {ps : Props} {sp : Option Span} [FloatTables] (h : PlainMeans ns t s) (he : ps.isEmpty = as.isEmpty)
    (hn : (ps.map Prod.fst).Nodup)
    (hk : ∀ k, k ∈ ps.map Prod.fst ↔ k ∈ as.map fun a => identifierText a.name) :
    Warns (finishFullType ps sp s) (droppedNotices as sp t) := by
  unfold finishFullType
  have hu := isNonNullableUnion_iff h
  have hd : (¬ ∃ ts, t = .union ts) → droppedNotices as sp t = [] := by
    intro h; unfold droppedNotices; split
    · exact absurd ⟨_, rfl⟩ h
    · rfl
  split
  · rename_i hp
    have : droppedNotices as sp t = [] := by
      unfold droppedNotices; split
      · rw [if_pos (he ▸ hp)]
      · rfl
    rw [this]
    exact .pure
  · rename_i hp
    split
    · exact .fail
    · split
      · rename_i h'
        obtain ⟨ts, rfl⟩ := hu.mp h'
        simp only [droppedNotices]
        rw [if_neg (he ▸ hp)]
        exact (Warns.warn (.dropped hn hk)).last fun _ => .pure
      · rename_i h'
        rw [hd fun hc => h' (hu.mpr hc)]
        exact Warns.pure.skip fun _ => .pure

mutual
theorem walkFullType_warns (ns : Option String) : ∀ t : FullType,
    Warns (walkFullType ns t) (typeNotices t)
  | .mk annots type _ => by
      simp only [walkFullType, typeNotices]
      refine Warns.bindPost (a := []) (by simpa [bareCtx] using walkAnnots_warns bareCtx annots {})
        (walkAnnots_keys bareCtx (by simp [Special, bareCtx]) annots) (fun p hp =>
        (walkPlainType_warns ns type).bindPost (walkPlainType_means ns type) (fun s hs =>
          finishFullType_warns hs.1 hp.1 hp.2.1 hp.2.2) rfl) rfl
theorem walkPlainType_warns (ns : Option String) : ∀ t : PlainType,
    Warns (walkPlainType ns t) (plainNotices t)
  | .array t => by
      simp only [walkPlainType, plainNotices]
      exact (walkFullType_warns ns t).last fun _ => .pure
  | .map t => by
      simp only [walkPlainType, plainNotices]
      exact (walkFullType_warns ns t).last fun _ => .pure
  | .union ts => by
      simp only [walkPlainType, plainNotices]
      exact (walkFullTypes_warns ns ts).last fun _ => .lift
  | .prim p o _ => by
      simp only [walkPlainType, plainNotices]
      exact Warns.lift.skip fun _ => .lift
  | .named i s o => by
      simp only [walkPlainType, plainNotices]
      exact .lift
theorem walkFullTypes_warns (ns : Option String) : ∀ ts : List FullType,
    Warns (walkFullTypes ns ts) (typesNotices ts)
  | [] => by simp only [walkFullTypes, typesNotices]; exact .pure
  | t :: ts => by
      simp only [walkFullTypes, typesNotices]
      exact (walkFullType_warns ns t).bind' (fun _ =>
        (walkFullTypes_warns ns ts).last fun _ => .pure) rfl
end

theorem walkVariable_warns (tokens : List Token) (t : Schema) (doc : Option String)
    (v : VarDecl) : Warns (walkVariable tokens t doc v) (aliasNotices v.annots) := by
  unfold walkVariable
  refine (walkDoc_warns tokens v.start).skip fun _ =>
    Warns.last (by simpa [variableCtx] using walkAnnots_warns variableCtx v.annots {}) fun _ =>
    Warns.lift.skip fun _ => Warns.skip ?_ fun _ => .pure
  unfold checkDefault
  split
  · exact .pure
  · split
    · exact .pure
    · exact .fail

theorem walkVariables_warns (tokens : List Token) (t : Schema) (doc : Option String)
    (vs : List VarDecl) :
    Warns (walkVariables tokens t doc vs) (vs.flatMap fun v => aliasNotices v.annots) := by
  induction vs with
  | nil => exact .pure
  | cons v vs ih =>
    simp only [walkVariables]
    exact (walkVariable_warns tokens t doc v).bind' (fun _ => ih.last fun _ => .pure) rfl

/-- What to warn about in a field declaration. -/
noncomputable def fieldNotices (f : FieldDecl) : List Notice :=
  typeNotices f.type ++ f.vars.flatMap fun v => aliasNotices v.annots

theorem walkField_warns (tokens : List Token) (ns : Option String) (d : FieldDecl) :
    Warns (walkField tokens ns d) (fieldNotices d) := by
  unfold walkField
  exact (walkDoc_warns tokens d.start).skip fun _ =>
    (walkFullType_warns ns d.type).bind' (fun _ => walkVariables_warns tokens _ _ _) rfl

omit [CharTables] [FloatTables] [CaseTables] in
theorem checkFieldNames_warns (record : String) (fs : List Field) :
    ∀ seen sps, Warns (checkFieldNames record seen fs sps) [] := by
  induction fs with
  | nil => intro seen sps; exact .pure
  | cons f fs ih =>
    intro seen sps
    simp only [checkFieldNames]
    split
    · exact .fail
    · exact ih _ _

theorem walkFields_warns (tokens : List Token) (ns : Option String) (record : String)
    (ds : List FieldDecl) : ∀ seen,
    Warns (walkFields tokens ns record seen ds) (ds.flatMap fieldNotices) := by
  induction ds with
  | nil => intro seen; exact .pure
  | cons d ds ih =>
    intro seen
    simp only [walkFields]
    exact (walkField_warns tokens ns d).bind' (fun _ =>
      (checkFieldNames_warns _ _ _ _).skip fun _ => (ih _).last fun _ => .pure) rfl

omit [CharTables] [FloatTables] [CaseTables] in
theorem checkSymbols_warns (ss : List (String × Option Span)) :
    ∀ seen, Warns (checkSymbols seen ss) [] := by
  induction ss with
  | nil => intro seen; exact .pure
  | cons s ss ih =>
    intro seen
    simp only [checkSymbols]
    split
    · exact .fail
    · exact ih _

theorem namedIn_warns (tokens : List Token) (ns : Option String) (d : NamedDecl) :
    Warns (namedIn tokens ns d) (declNotices d) := by
  cases d with
  | record d =>
    simp only [namedIn, recordIn, declNotices]
    exact (walkDoc_warns tokens d.start).skip fun _ => Warns.bind'
      (by simpa [namedCtx] using walkAnnots_warns namedCtx d.annots {}) (fun _ =>
      Warns.failIf.skip fun _ => (walkFields_warns tokens _ _ _ _).last fun _ => .pure) rfl
  | enum d =>
    simp only [namedIn, walkEnum, declNotices]
    refine (walkDoc_warns tokens d.start).skip fun _ => Warns.last
      (by simpa [enumCtx] using walkAnnots_warns enumCtx d.annots {}) fun _ =>
      Warns.failIf.skip fun _ =>
      (checkSymbols_warns _ _).skip fun sy => Warns.skip ?_ fun _ => .pure
    cases d.default with
    | none => exact .pure
    | some s =>
      simp only [checkEnumDefault]
      split
      · exact .pure
      · exact .fail
  | fixed d =>
    simp only [namedIn, walkFixed, declNotices]
    refine (walkDoc_warns tokens d.start).skip fun _ => Warns.last
      (by simpa [namedCtx] using walkAnnots_warns namedCtx d.annots {}) fun _ =>
      Warns.failIf.skip fun _ => ?_
    split
    · exact .fail
    · exact .pure

theorem walkParams_warns (tokens : List Token) (ns : Option String) (message : String)
    (ps : List Param) : ∀ seen, Warns (walkParams tokens ns message seen ps)
      (ps.flatMap fun p => typeNotices p.type ++ aliasNotices p.var.annots) := by
  induction ps with
  | nil => intro seen; exact .pure
  | cons p ps ih =>
    intro seen
    simp only [walkParams]
    refine (walkDoc_warns tokens p.start).skip fun _ =>
      (walkFullType_warns ns p.type).bind' (fun _ =>
      (walkVariable_warns tokens _ _ p.var).bind'
        (b := ps.flatMap fun p => typeNotices p.type ++ aliasNotices p.var.annots)
        (fun f => ?_) rfl) (by simp)
    split
    · exact .fail
    · exact (ih _).last fun _ => .pure

theorem walkMessage_warns (tokens : List Token) (ns : Option String) (d : MessageDecl) :
    Warns (walkMessage tokens ns d) (messageNotices d) := by
  unfold walkMessage messageNotices
  refine (walkDoc_warns tokens d.start).skip fun _ => Warns.skip
    (by simpa [messageCtx] using walkAnnots_warns messageCtx d.annots {}) fun _ =>
    Warns.bind' ?_ (fun _ =>
    Warns.failIf.skip fun _ => (walkParams_warns tokens _ _ _ _).last fun _ =>
    Warns.failIf.skip fun _ => .pure) rfl
  unfold walkResult
  cases d.result with
  | none => exact .pure
  | some t => exact walkPlainType_warns ns _

theorem bodyIn_warns (tokens : List Token) (ns : Option String) (items : List BodyItem) :
    ∀ ms, Warns (bodyIn tokens ns ms items) (items.flatMap fun x => match x with
      | .import_ _ => []
      | .named t _ => declNotices t
      | .message m => messageNotices m) := by
  induction items with
  | nil => intro ms; exact .pure
  | cons i items ih =>
    intro ms
    cases i with
    | import_ i =>
      simp only [bodyIn]
      exact (ih ms).last fun _ => .pure
    | named d s =>
      simp only [bodyIn]
      exact (namedIn_warns tokens ns d).bind' (fun _ => (ih ms).last fun _ => .pure) rfl
    | message m =>
      simp only [bodyIn]
      exact (walkMessage_warns tokens ns m).bind' (fun _ => ih _) rfl

theorem itemsIn_warns (tokens : List Token) (ns : Option String) (items : List FileItem) :
    Warns (itemsIn tokens ns items) (items.flatMap fun x => match x with
      | .import_ _ => []
      | .named t _ => declNotices t) := by
  induction items with
  | nil => exact .pure
  | cons i items ih =>
    cases i with
    | import_ i =>
      simp only [itemsIn]
      exact ih.last fun _ => .pure
    | named d s =>
      simp only [itemsIn]
      exact (namedIn_warns tokens ns d).bind' (fun _ => ih.last fun _ => .pure) rfl

theorem fileIn_warns (tokens : List Token) (ast : FileAst) :
    Warns (fileIn tokens ast) (fileNotices ast) := by
  cases ast with
  | protocol d =>
    simp only [fileIn, protocolIn, fileNotices]
    exact Warns.last ((walkDoc_warns tokens d.start).skip fun _ => Warns.skip
      (by simpa [protocolCtx] using walkAnnots_warns protocolCtx d.annots {}) fun _ =>
      Warns.failIf.skip fun _ => (bodyIn_warns tokens _ _ _).last fun _ => .pure) fun _ => .pure
  | schema n main body =>
    simp only [fileIn, fileNotices]
    refine (itemsIn_warns tokens _ body).bind' (fun _ => ?_) rfl
    cases main with
    | some t => exact (walkFullType_warns _ _).last fun _ => .pure
    | none => exact .pure

theorem readFile_warns {tokens : List Token} {ast : FileAst} {r : ReadResult}
    (h : readFile tokens ast = .ok r) : Matching WarnsAbout (fileNotices ast) r.warnings := by
  unfold readFile at h
  split at h
  · cases h
  · rename_i r' log hw
    injection h with h; subst h
    rw [walkFile_eq] at hw
    obtain ⟨ws, h1, h2⟩ := fileIn_warns tokens ast _ _ _ hw
    simp only [List.nil_append] at h1
    simp only [h1]
    exact h2

end

end Avdl
