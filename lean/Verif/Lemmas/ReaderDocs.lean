import Verif.Spec.DocPlaces
import Verif.Lemmas.ReaderMeans
/-!
# Which doc comments the reader consumes
-/

namespace Avdl
open W Spec

/-- The doc comments belonging to the given places. -/
def docsAt (tokens : List Token) (places : List Nat) : List Nat :=
  places.filterMap fun s => (findDoc tokens s).map Prod.fst

theorem docsAt_append (tokens : List Token) (a b : List Nat) :
    docsAt tokens (a ++ b) = docsAt tokens a ++ docsAt tokens b := List.filterMap_append

/-- A step consumes exactly the doc comments at the given places. -/
def Consumes {α : Type} (tokens : List Token) (m : W α) (places : List Nat) : Prop :=
  ∀ l a l', m l = .ok (a, l') → l'.consumed = l.consumed ++ docsAt tokens places

namespace Consumes

theorem pure {α : Type} {tokens : List Token} {a : α} : Consumes tokens (W.pure a) [] := by
  intro l b l' h
  simp only [W.pure, Except.ok.injEq, Prod.mk.injEq] at h
  rw [← h.2]; simp [docsAt]

theorem fail {α : Type} {tokens : List Token} {e : ReadErr} {sp : Option Span} {ps : List Nat} :
    Consumes (α := α) tokens (W.fail e sp) ps := by
  intro l b l' h; simp [W.fail] at h

theorem lift {α : Type} {tokens : List Token} {x : Except Fault α} :
    Consumes tokens (W.lift x) [] := by
  cases x with
  | error e => exact fail
  | ok a => exact pure

theorem warn {tokens : List Token} {w : WalkWarning} : Consumes tokens (W.warn w) [] := by
  intro l b l' h
  simp only [W.warn, Except.ok.injEq, Prod.mk.injEq] at h
  rw [← h.2]; simp [docsAt]

theorem failIf {tokens : List Token} {b : Bool} {e : ReadErr} {sp : Option Span} :
    Consumes tokens (W.failIf b e sp) [] := by
  unfold W.failIf
  split
  · exact fail
  · exact pure

theorem bind' {α β : Type} {tokens : List Token} {m : W α} {f : α → W β} {a b c : List Nat}
    (hm : Consumes tokens m a) (hf : ∀ x, Consumes tokens (f x) b) (h : c = a ++ b) :
    Consumes tokens (W.bind m f) c := by
  intro l y l' hr
  simp only [W.bind] at hr
  cases hml : m l with
  | error e => rw [hml] at hr; cases hr
  | ok r =>
    obtain ⟨x, l1⟩ := r
    rw [hml] at hr
    rw [hf x l1 y l' hr, hm l x l1 hml, h, docsAt_append, List.append_assoc]

/-- After a step that consumes nothing. -/
theorem skip {α β : Type} {tokens : List Token} {m : W α} {f : α → W β} {b : List Nat}
    (hm : Consumes tokens m []) (hf : ∀ x, Consumes tokens (f x) b) :
    Consumes tokens (W.bind m f) b := hm.bind' hf rfl

/-- Before a step that consumes nothing. -/
theorem last {α β : Type} {tokens : List Token} {m : W α} {f : α → W β} {a : List Nat}
    (hm : Consumes tokens m a) (hf : ∀ x, Consumes tokens (f x) []) :
    Consumes tokens (W.bind m f) a := hm.bind' hf (by simp)

end Consumes

theorem walkDoc_consumes (tokens : List Token) (start : Nat) :
    Consumes tokens (walkDoc tokens start) [start] := by
  intro l a l' h
  unfold walkDoc extractDocComment at h
  simp only [docsAt, List.filterMap_cons, List.filterMap_nil]
  cases hf : findDoc tokens start with
  | none =>
    rw [hf] at h
    simp only [W.pure, Except.ok.injEq, Prod.mk.injEq] at h
    rw [← h.2]; simp
  | some r =>
    obtain ⟨i, t⟩ := r
    rw [hf] at h
    simp only [W.bind, W.consume, W.pure, Except.ok.injEq, Prod.mk.injEq] at h
    rw [← h.2]; simp

section
variable [CharTables] [FloatTables] [CaseTables]

omit [FloatTables] [CaseTables] in
theorem walkAliases_consumes (tokens : List Token) (sp : Option Span) (js : List Json) :
    Consumes tokens (walkAliases sp js) [] := by
  induction js with
  | nil => exact .pure
  | cons j js ih =>
    cases j with
    | str s =>
      simp only [walkAliases]
      refine Consumes.skip ?_ fun _ => ih.skip fun _ => .pure
      split
      · exact .pure
      · exact .warn
    | _ => exact .fail

theorem walkAnnots_consumes (tokens : List Token) (ctx : PropCtx) (as : List Annot) :
    ∀ acc, Consumes tokens (walkAnnots ctx acc as) [] := by
  induction as with
  | nil => intro acc; exact .pure
  | cons a as ih =>
    intro acc
    simp only [walkAnnots]
    refine Consumes.lift.skip fun v => Consumes.skip ?_ fun acc' => ih acc'
    unfold annotStep
    split
    · split
      · exact .pure
      · exact .fail
    · split
      · split
        · exact (walkAliases_consumes tokens _ _).skip fun _ => .pure
        · exact .fail
      · split
        · split
          · exact .pure
          · exact .fail
        · split
          · exact .fail
          · exact .pure

omit [CharTables] [FloatTables] [CaseTables] in
theorem finishFullType_consumes (tokens : List Token) (ps : Props) (sp : Option Span)
    (s : Schema) : Consumes tokens (finishFullType ps sp s) [] := by
  unfold finishFullType
  split
  · exact .pure
  · split
    · exact .fail
    · refine Consumes.skip ?_ fun _ => .pure
      split
      · exact .warn
      · exact .pure

mutual
theorem walkFullType_consumes (tokens : List Token) (ns : Option String) : ∀ t : FullType,
    Consumes tokens (walkFullType ns t) []
  | .mk annots type _ => by
      simp only [walkFullType]
      exact (walkAnnots_consumes tokens _ _ _).skip fun _ =>
        (walkPlainType_consumes tokens ns type).skip fun _ => finishFullType_consumes tokens _ _ _
theorem walkPlainType_consumes (tokens : List Token) (ns : Option String) : ∀ t : PlainType,
    Consumes tokens (walkPlainType ns t) []
  | .array t => by
      simp only [walkPlainType]
      exact (walkFullType_consumes tokens ns t).skip fun _ => .pure
  | .map t => by
      simp only [walkPlainType]
      exact (walkFullType_consumes tokens ns t).skip fun _ => .pure
  | .union ts => by
      simp only [walkPlainType]
      exact (walkFullTypes_consumes tokens ns ts).skip fun _ => .lift
  | .prim p o _ => by
      simp only [walkPlainType]
      exact Consumes.lift.skip fun _ => .lift
  | .named i s o => by
      simp only [walkPlainType]
      exact .lift
theorem walkFullTypes_consumes (tokens : List Token) (ns : Option String) : ∀ ts : List FullType,
    Consumes tokens (walkFullTypes ns ts) []
  | [] => .pure
  | t :: ts => by
      simp only [walkFullTypes]
      exact (walkFullType_consumes tokens ns t).skip fun _ =>
        (walkFullTypes_consumes tokens ns ts).skip fun _ => .pure
end

theorem walkVariable_consumes (tokens : List Token) (t : Schema) (doc : Option String)
    (v : VarDecl) : Consumes tokens (walkVariable tokens t doc v) [v.start] := by
  unfold walkVariable
  refine (walkDoc_consumes tokens v.start).last fun _ =>
    (walkAnnots_consumes tokens _ _ _).skip fun _ => Consumes.lift.skip fun _ =>
    Consumes.skip ?_ fun _ => .pure
  unfold checkDefault
  split
  · exact .pure
  · split
    · exact .pure
    · exact .fail

theorem walkVariables_consumes (tokens : List Token) (t : Schema) (doc : Option String)
    (vs : List VarDecl) :
    Consumes tokens (walkVariables tokens t doc vs) (vs.map VarDecl.start) := by
  induction vs with
  | nil => exact .pure
  | cons v vs ih =>
    simp only [walkVariables]
    exact (walkVariable_consumes tokens t doc v).bind' (fun _ => ih.last fun _ => .pure) rfl

theorem walkField_consumes (tokens : List Token) (ns : Option String) (d : FieldDecl) :
    Consumes tokens (walkField tokens ns d) (fieldPlaces d) := by
  unfold walkField
  exact (walkDoc_consumes tokens d.start).bind' (fun _ =>
    (walkFullType_consumes tokens ns d.type).skip fun _ => walkVariables_consumes tokens _ _ _) rfl

omit [CharTables] [FloatTables] [CaseTables] in
theorem checkFieldNames_consumes (tokens : List Token) (record : String) (fs : List Field) :
    ∀ seen sps, Consumes tokens (checkFieldNames record seen fs sps) [] := by
  induction fs with
  | nil => intro seen sps; exact .pure
  | cons f fs ih =>
    intro seen sps
    simp only [checkFieldNames]
    split
    · exact .fail
    · exact ih _ _

theorem walkFields_consumes (tokens : List Token) (ns : Option String) (record : String)
    (ds : List FieldDecl) : ∀ seen,
    Consumes tokens (walkFields tokens ns record seen ds) (ds.flatMap fieldPlaces) := by
  induction ds with
  | nil => intro seen; exact .pure
  | cons d ds ih =>
    intro seen
    simp only [walkFields]
    exact (walkField_consumes tokens ns d).bind' (fun _ =>
      (checkFieldNames_consumes tokens _ _ _ _).skip fun _ => (ih _).last fun _ => .pure) rfl

omit [CharTables] [FloatTables] [CaseTables] in
theorem checkSymbols_consumes (tokens : List Token) (ss : List (String × Option Span)) :
    ∀ seen, Consumes tokens (checkSymbols seen ss) [] := by
  induction ss with
  | nil => intro seen; exact .pure
  | cons s ss ih =>
    intro seen
    simp only [checkSymbols]
    split
    · exact .fail
    · exact ih _

theorem namedIn_consumes (tokens : List Token) (ns : Option String) (d : NamedDecl) :
    Consumes tokens (namedIn tokens ns d) (namedPlaces d) := by
  cases d with
  | record d =>
    simp only [namedIn, recordIn]
    exact (walkDoc_consumes tokens d.start).bind' (fun _ =>
      (walkAnnots_consumes tokens _ _ _).skip fun _ => Consumes.failIf.skip fun _ =>
      (walkFields_consumes tokens _ _ _ _).last fun _ => .pure) rfl
  | enum d =>
    simp only [namedIn, walkEnum]
    refine (walkDoc_consumes tokens d.start).last fun _ =>
      (walkAnnots_consumes tokens _ _ _).skip fun _ => Consumes.failIf.skip fun _ =>
      (checkSymbols_consumes tokens _ _).skip fun sy => Consumes.skip ?_ fun _ => .pure
    cases d.default with
    | none => exact .pure
    | some s =>
      simp only [checkEnumDefault]
      split
      · exact .pure
      · exact .fail
  | fixed d =>
    simp only [namedIn, walkFixed]
    refine (walkDoc_consumes tokens d.start).last fun _ =>
      (walkAnnots_consumes tokens _ _ _).skip fun _ => Consumes.failIf.skip fun _ => ?_
    split
    · exact .fail
    · exact .pure

theorem walkParams_consumes (tokens : List Token) (ns : Option String) (message : String)
    (ps : List Param) : ∀ seen,
    Consumes tokens (walkParams tokens ns message seen ps) (ps.flatMap paramPlaces) := by
  induction ps with
  | nil => intro seen; exact .pure
  | cons p ps ih =>
    intro seen
    simp only [walkParams]
    refine (walkDoc_consumes tokens p.start).bind' (fun _ =>
      (walkFullType_consumes tokens ns p.type).skip fun _ =>
      (walkVariable_consumes tokens _ _ p.var).bind' (b := ps.flatMap paramPlaces)
        (fun f => ?_) rfl) rfl
    split
    · exact .fail
    · exact (ih _).last fun _ => .pure

theorem walkMessage_consumes (tokens : List Token) (ns : Option String) (d : MessageDecl) :
    Consumes tokens (walkMessage tokens ns d) (messagePlaces d) := by
  unfold walkMessage
  refine (walkDoc_consumes tokens d.start).bind' (fun _ =>
    (walkAnnots_consumes tokens _ _ _).skip fun _ => Consumes.skip ?_ fun _ =>
    Consumes.failIf.skip fun _ => (walkParams_consumes tokens _ _ _ _).last fun _ =>
    Consumes.failIf.skip fun _ => .pure) rfl
  unfold walkResult
  split
  · exact .pure
  · exact walkPlainType_consumes tokens ns _

theorem bodyIn_consumes (tokens : List Token) (ns : Option String) (items : List BodyItem) :
    ∀ ms, Consumes tokens (bodyIn tokens ns ms items) (items.flatMap bodyPlaces) := by
  induction items with
  | nil => intro ms; exact .pure
  | cons i items ih =>
    intro ms
    cases i with
    | import_ i =>
      simp only [bodyIn]
      exact (ih ms).last fun _ => .pure
    | named d s =>
      simp only [bodyIn]
      exact (namedIn_consumes tokens ns d).bind' (fun _ => (ih ms).last fun _ => .pure) rfl
    | message m =>
      simp only [bodyIn]
      exact (walkMessage_consumes tokens ns m).bind' (fun _ => ih _) rfl

theorem itemsIn_consumes (tokens : List Token) (ns : Option String) (items : List FileItem) :
    Consumes tokens (itemsIn tokens ns items) (items.flatMap itemPlaces) := by
  induction items with
  | nil => exact .pure
  | cons i items ih =>
    cases i with
    | import_ i =>
      simp only [itemsIn]
      exact ih.last fun _ => .pure
    | named d s =>
      simp only [itemsIn]
      exact (namedIn_consumes tokens ns d).bind' (fun _ => ih.last fun _ => .pure) rfl

theorem fileIn_consumes (tokens : List Token) (ast : FileAst) :
    Consumes tokens (fileIn tokens ast) (docPlaces ast) := by
  cases ast with
  | protocol d =>
    simp only [fileIn, protocolIn]
    exact Consumes.last ((walkDoc_consumes tokens d.start).bind' (fun _ =>
      (walkAnnots_consumes tokens _ _ _).skip fun _ => Consumes.failIf.skip fun _ =>
      (bodyIn_consumes tokens _ _ _).last fun _ => .pure) rfl) fun _ => .pure
  | schema n main body =>
    simp only [fileIn]
    refine (itemsIn_consumes tokens _ body).last fun _ => ?_
    split
    · exact (walkFullType_consumes tokens _ _).skip fun _ => .pure
    · exact .pure

omit [CharTables] [FloatTables] [CaseTables] in
/-- At most one doc comment belongs to a place. -/
theorem DocBefore.unique {tokens : List Token} {start : Nat} {i j : Option Nat}
    (hi : DocBefore tokens start i) (hj : DocBefore tokens start j) : i = j := by
  have clash : ∀ {i j : Nat} {t u : Token}, i < start → tokens[i]? = some t → t.type = .doc →
      (∀ j u, i < j → j < start → tokens[j]? = some u → u.type = .ws ∨ u.type = .emptyComment) →
      j < start → tokens[j]? = some u → u.type = .doc → ¬ i < j := by
    intro i j t u _ _ _ h hj hu hd hlt
    rcases h j u hlt hj hu with h | h <;> rw [hd] at h <;> cases h
  cases hi with
  | found h1 h2 h3 h4 =>
    cases hj with
    | found g1 g2 g3 g4 =>
      have a := clash h1 h2 h3 h4 g1 g2 g3
      have b := clash g1 g2 g3 g4 h1 h2 h3
      congr 1; omega
    | absent g =>
      obtain ⟨j, u, h5, h6, h7, h8⟩ := g _ _ h1 h2 h3
      rcases h4 j u h5 h6 h7 with h | h <;> rw [h8] at h <;> cases h
  | absent h =>
    cases hj with
    | absent _ => rfl
    | found g1 g2 g3 g4 =>
      obtain ⟨j, u, h5, h6, h7, h8⟩ := h _ _ g1 g2 g3
      rcases g4 j u h5 h6 h7 with h | h <;> rw [h8] at h <;> cases h

omit [CharTables] [FloatTables] [CaseTables] in
theorem mem_docsAt {tokens : List Token} {places : List Nat} {i : Nat} :
    i ∈ docsAt tokens places ↔ ∃ s ∈ places, DocBefore tokens s (some i) := by
  unfold docsAt
  rw [List.mem_filterMap]
  refine exists_congr fun s => and_congr_right fun _ => ?_
  have h := (findDoc_spec tokens s).1
  constructor
  · intro he; rw [he] at h; exact h
  · intro he; exact DocBefore.unique h he

/-- The reported doc comments are those that belong to no declaration. -/
theorem readFile_orphans {tokens : List Token} {ast : FileAst} {r : ReadResult}
    (h : readFile tokens ast = .ok r) :
    r.orphans = orphanedDocs tokens (docsAt tokens (docPlaces ast)) := by
  unfold readFile at h
  split at h
  · cases h
  · rename_i r' log hw
    injection h with h; subst h
    rw [walkFile_eq] at hw
    have := fileIn_consumes tokens ast _ _ _ hw
    simp only [List.nil_append] at this
    simp only [this]

end

end Avdl
