import Verif.Spec.SourceLiterals
import Verif.Lemmas.ReaderNs
/-! # Every literal of an accepted file was read -/

namespace Avdl
open W Spec

section
variable [CharTables] [FloatTables] [CaseTables]

/-- The reader's conversion of the literal succeeds. -/
def Spec.SourceLiteral.IsRead : SourceLiteral → Prop
  | .json v => ∃ j, walkJson v = .ok j
  | .size text => ∃ n, parseIntegerAsU32 text = some n
  | .location _ => True

/-- The step succeeds only if the literals can be read. -/
def Reads {α : Type} (m : W α) (ls : List SourceLiteral) : Prop :=
  ∀ l a l', m l = .ok (a, l') → ∀ x ∈ ls, x.IsRead

namespace Reads
omit [CharTables] [CaseTables]

theorem none {α : Type} {m : W α} : Reads m [] := by
  intro l a l' _ x hx; cases hx

theorem fail {α : Type} {e : ReadErr} {sp : Option Span} {ls : List SourceLiteral} :
    Reads (α := α) (W.fail e sp) ls := by
  intro l b l' h; simp [W.fail] at h

theorem lift {α : Type} {x : Except Fault α} {ls : List SourceLiteral}
    (h : ∀ a, x = .ok a → ∀ x ∈ ls, x.IsRead) : Reads (W.lift x) ls := by
  intro l b l' hb
  cases x with
  | error e => simp [W.lift] at hb
  | ok a => exact h a rfl

theorem bind {α β : Type} {m : W α} {f : α → W β} {a b c : List SourceLiteral}
    (hm : Reads m a) (hf : ∀ x, Reads (f x) b) (h : c = a ++ b) : Reads (W.bind m f) c := by
  intro l y l' hr x hx
  simp only [W.bind] at hr
  split at hr
  · cases hr
  · rename_i v l1 hv
    rw [h] at hx
    rcases List.mem_append.mp hx with hx | hx
    · exact hm _ _ _ hv x hx
    · exact hf v _ _ _ hr x hx

theorem skip {α β : Type} {m : W α} {f : α → W β} {b : List SourceLiteral}
    (hf : ∀ x, Reads (f x) b) : Reads (W.bind m f) b := none.bind hf rfl

theorem last {α β : Type} {m : W α} {f : α → W β} {a : List SourceLiteral}
    (hm : Reads m a) : Reads (W.bind m f) a := hm.bind (fun _ => none) (by simp)

end Reads

theorem walkAnnots_reads (ctx : PropCtx) (as : List Annot) :
    ∀ acc, Reads (walkAnnots ctx acc as) (annotLits as) := by
  induction as with
  | nil => intro acc; exact .none
  | cons a as ih =>
    intro acc
    simp only [walkAnnots]
    refine Reads.bind (a := [.json a.value]) (b := annotLits as) (.lift fun j hj x hx => ?_)
      (fun v => .skip fun acc' => ih acc') rfl
    rw [List.mem_singleton.mp hx]
    exact ⟨j, hj⟩

omit [CharTables] [CaseTables] in
theorem walkPrim_reads {p : PrimTok} {s : Schema} (h : walkPrim p = .ok s) :
    ∀ x ∈ primLits p, x.IsRead := by
  intro x hx
  cases p with
  | decimal t sp o =>
    simp only [walkPrim] at h
    split at h
    · cases h
    · rename_i n hn
      split at h
      · cases h
      · cases o with
        | none =>
          simp only [primLits, List.mem_singleton] at hx
          subst hx; exact ⟨n, hn⟩
        | some t' =>
          simp only at h
          split at h
          · cases h
          · rename_i m hm
            simp only [primLits, List.mem_cons, List.not_mem_nil, or_false] at hx
            rcases hx with rfl | rfl
            · exact ⟨n, hn⟩
            · exact ⟨m, hm⟩
  | _ => cases hx

mutual
theorem walkFullType_reads (ns : Option String) : ∀ t : FullType,
    Reads (walkFullType ns t) (typeLits t)
  | .mk annots type _ => by
      simp only [walkFullType, typeLits]
      exact (walkAnnots_reads _ _ _).bind (fun _ => (walkPlainType_reads ns type).last) rfl
theorem walkPlainType_reads (ns : Option String) : ∀ t : PlainType,
    Reads (walkPlainType ns t) (plainLits t)
  | .array t => by
      simp only [walkPlainType, plainLits]
      exact (walkFullType_reads ns t).last
  | .map t => by
      simp only [walkPlainType, plainLits]
      exact (walkFullType_reads ns t).last
  | .union ts => by
      simp only [walkPlainType, plainLits]
      exact (walkFullTypes_reads ns ts).last
  | .prim p o _ => by
      simp only [walkPlainType, plainLits]
      exact (Reads.lift fun _ h => walkPrim_reads h).last
  | .named i s o => by
      simp only [plainLits]
      exact .none
theorem walkFullTypes_reads (ns : Option String) : ∀ ts : List FullType,
    Reads (walkFullTypes ns ts) (typesLits ts)
  | [] => by simp only [typesLits]; exact .none
  | t :: ts => by
      simp only [walkFullTypes, typesLits]
      exact (walkFullType_reads ns t).bind (fun _ => (walkFullTypes_reads ns ts).last) rfl
end

theorem walkVariable_reads (tokens : List Token) (t : Schema) (doc : Option String)
    (v : VarDecl) : Reads (walkVariable tokens t doc v) (varLits v) := by
  unfold walkVariable
  refine .skip fun _ => (walkAnnots_reads _ _ _).bind (fun _ => Reads.last ?_) rfl
  refine .lift fun d hd x hx => ?_
  cases hv : v.default with
  | none => rw [hv] at hx; cases hx
  | some w =>
    rw [hv] at hd hx
    simp only [Option.toList, List.map_cons, List.map_nil, List.mem_singleton] at hx
    subst hx
    simp only [walkDefault] at hd
    split at hd
    · rename_i j hj; exact ⟨j, hj⟩
    · cases hd

theorem walkVariables_reads (tokens : List Token) (t : Schema) (doc : Option String)
    (vs : List VarDecl) : Reads (walkVariables tokens t doc vs) (vs.flatMap varLits) := by
  induction vs with
  | nil => exact .none
  | cons v vs ih =>
    simp only [walkVariables, List.flatMap_cons]
    exact (walkVariable_reads tokens t doc v).bind (fun _ => ih.last) rfl

theorem walkField_reads (tokens : List Token) (ns : Option String) (d : FieldDecl) :
    Reads (walkField tokens ns d) (fieldLits d) := by
  unfold walkField
  exact .skip fun _ => (walkFullType_reads ns d.type).bind
    (fun _ => walkVariables_reads tokens _ _ _) rfl

theorem walkFields_reads (tokens : List Token) (ns : Option String) (record : String)
    (ds : List FieldDecl) : ∀ seen,
    Reads (walkFields tokens ns record seen ds) (ds.flatMap fieldLits) := by
  induction ds with
  | nil => intro seen; exact .none
  | cons d ds ih =>
    intro seen
    simp only [walkFields, List.flatMap_cons]
    exact (walkField_reads tokens ns d).bind (fun _ => .skip fun _ => (ih _).last) rfl

theorem namedIn_reads (tokens : List Token) (ns : Option String) (d : NamedDecl) :
    Reads (namedIn tokens ns d) (namedLits d) := by
  cases d with
  | record d =>
    simp only [namedIn, recordIn, namedLits]
    exact .skip fun _ => (walkAnnots_reads _ _ _).bind (fun _ => .skip fun _ =>
      (walkFields_reads tokens _ _ _ _).last) rfl
  | enum d =>
    simp only [namedIn, walkEnum, namedLits]
    exact .skip fun _ => (walkAnnots_reads _ _ _).last
  | fixed d =>
    simp only [namedIn, walkFixed, namedLits]
    refine .skip fun _ => (walkAnnots_reads _ _ _).bind (fun _ => .skip fun _ => ?_) rfl
    split
    · exact .fail
    · rename_i n hn
      intro l a l' _ x hx
      rw [List.mem_singleton.mp hx]
      exact ⟨n, hn⟩

theorem walkParams_reads (tokens : List Token) (ns : Option String) (message : String)
    (ps : List Param) : ∀ seen,
    Reads (walkParams tokens ns message seen ps) (ps.flatMap paramLits) := by
  induction ps with
  | nil => intro seen; exact .none
  | cons p ps ih =>
    intro seen
    simp only [walkParams, List.flatMap_cons, paramLits]
    refine .skip fun _ => (walkFullType_reads ns p.type).bind (b := varLits p.var ++
      ps.flatMap paramLits) (fun _ => (walkVariable_reads tokens _ _ p.var).bind
        (b := ps.flatMap paramLits) (fun f => ?_) rfl) (by simp)
    split
    · exact .fail
    · exact (ih _).last

theorem walkMessage_reads (tokens : List Token) (ns : Option String) (d : MessageDecl) :
    Reads (walkMessage tokens ns d) (messageLits d) := by
  unfold walkMessage messageLits
  refine .skip fun _ => (walkAnnots_reads _ _ _).bind (b := resultLits d.result ++
    d.params.flatMap paramLits) (fun _ => Reads.bind ?_ (fun _ => .skip fun _ =>
      (walkParams_reads tokens _ _ _ _).last) rfl) (by simp)
  unfold walkResult
  cases d.result with
  | none => exact .none
  | some t => exact walkPlainType_reads ns t

theorem bodyIn_reads (tokens : List Token) (ns : Option String) (items : List BodyItem) :
    ∀ ms, Reads (bodyIn tokens ns ms items) (items.flatMap itemLits) := by
  induction items with
  | nil => intro ms; exact .none
  | cons i items ih =>
    intro ms
    cases i with
    | import_ i =>
      simp only [bodyIn, List.flatMap_cons, itemLits]
      intro l a l' h x hx
      rcases List.mem_append.mp hx with hx | hx
      · rw [List.mem_singleton.mp hx]; trivial
      · exact (ih ms).last _ _ _ h x hx
    | named d s =>
      simp only [bodyIn, List.flatMap_cons, itemLits]
      exact (namedIn_reads tokens ns d).bind (fun _ => (ih ms).last) rfl
    | message m =>
      simp only [bodyIn, List.flatMap_cons, itemLits]
      exact (walkMessage_reads tokens ns m).bind (fun _ => ih _) rfl

theorem itemsIn_reads (tokens : List Token) (ns : Option String) (items : List FileItem) :
    Reads (itemsIn tokens ns items) (items.flatMap fileItemLits) := by
  induction items with
  | nil => exact .none
  | cons i items ih =>
    cases i with
    | import_ i =>
      simp only [itemsIn, List.flatMap_cons, fileItemLits]
      intro l a l' h x hx
      rcases List.mem_append.mp hx with hx | hx
      · rw [List.mem_singleton.mp hx]; trivial
      · exact ih.last _ _ _ h x hx
    | named d s =>
      simp only [itemsIn, List.flatMap_cons, fileItemLits]
      exact (namedIn_reads tokens ns d).bind (fun _ => ih.last) rfl

theorem fileIn_reads (tokens : List Token) (ast : FileAst) :
    Reads (fileIn tokens ast) (fileLits ast) := by
  cases ast with
  | protocol d =>
    simp only [fileIn, protocolIn, fileLits]
    exact Reads.last (.skip fun _ => (walkAnnots_reads _ _ _).bind (fun _ => .skip fun _ =>
      (bodyIn_reads tokens _ _ _).last) rfl)
  | schema n main body =>
    simp only [fileIn, fileLits]
    intro l a l' h x hx
    have h' := h
    rcases List.mem_append.mp hx with hx | hx
    · cases main with
      | none => cases hx
      | some t =>
        exact Reads.skip (fun _ => (walkFullType_reads _ t).last) _ _ _ h x hx
    · exact (itemsIn_reads tokens _ body).last _ _ _ h x hx

theorem readFile_reads {tokens : List Token} {ast : FileAst} {r : ReadResult}
    (h : readFile tokens ast = .ok r) : ∀ x ∈ fileLits ast, x.IsRead := by
  unfold readFile at h
  split at h
  · cases h
  · rename_i r' log hw
    rw [walkFile_eq] at hw
    exact fileIn_reads tokens ast _ _ _ hw

end

end Avdl
