import Verif.Lemmas.Reader
import Verif.Lemmas.Names
import Verif.Lemmas.ReaderNs
/-! # What the reader produces: fields, declarations, messages, files -/

namespace Avdl
open W Spec

/-- A field or parameter produced in namespace `ns`. -/
structure FieldOut (ns : Option String) (f : Field) : Prop where
  type : ∃ t, TypeOut ns t ∧ f.schema = fixOptional t f.default
  default : ∀ v, f.default = some v → validateDefault v f.schema = none
  props : AnnotOk fieldReserved f.props
  held : ∀ v, f.default = some v → Held v

/-- A declared type. -/
inductive NamedOut : Schema → Prop
  | record (n : String) (ns doc : Option String) (fs : List Field) (er : Bool)
      (al : List String) (ps : Props) : isInvalidTypeName n = false → DotFree n →
      (∀ f ∈ fs, FieldOut ns f) → (fs.map Field.name).Nodup → AnnotOk schemaReserved ps →
      NamedOut (.record n ns doc fs er al ps)
  | enum (n : String) (ns doc : Option String) (sy : List String) (df : Option String)
      (al : List String) (ps : Props) : isInvalidTypeName n = false → DotFree n →
      sy.Nodup → (∀ d, df = some d → d ∈ sy) → AnnotOk enumReserved ps →
      NamedOut (.enum n ns doc sy df al ps)
  | fixed (n : String) (ns doc : Option String) (sz : Nat) (al : List String) (ps : Props) :
      isInvalidTypeName n = false → DotFree n → sz < 2 ^ 32 → AnnotOk schemaReserved ps →
      NamedOut (.fixed n ns doc sz al ps)

/-- A message produced in namespace `ns`. -/
structure MessageOut (ns : Option String) (m : Message) : Prop where
  request : ∀ f ∈ m.request, FieldOut ns f
  distinct : (m.request.map Field.name).Nodup
  response : TypeOut ns m.response
  errors : ∀ es, m.errors = some es → ∀ e ∈ es, ∃ ident span, e = refTo ident span ns
  oneWay : m.oneWay = true → m.response = .prim .null
  props : AnnotOk messageReserved m.props

/-- The types of a declaration list. -/
def DeclItem.types (ds : List DeclItem) : List Schema :=
  ds.filterMap fun d => match d with
    | .type s _ _ => some s
    | .import_ _ => none

theorem DeclItem.mem_types {ds : List DeclItem} {s : Schema} :
    s ∈ DeclItem.types ds ↔ ∃ sp fs, DeclItem.type s sp fs ∈ ds := by
  unfold DeclItem.types
  rw [List.mem_filterMap]
  constructor
  · rintro ⟨d, hd, h⟩
    cases d with
    | import_ e => cases h
    | type t sp fs => cases h; exact ⟨sp, fs, hd⟩
  · rintro ⟨sp, fs, h⟩; exact ⟨_, h, rfl⟩

/-- The result of reading a file. -/
structure FileOut (r : IdlFile × List DeclItem) : Prop where
  decls : ∀ s ∈ DeclItem.types r.2, NamedOut s
  protocol : ∀ p, r.1 = .protocol p → p.types = [] ∧ isInvalidTypeName p.name = false ∧
    DotFree p.name ∧ AnnotOk protocolReserved p.props ∧ (p.messages.map Prod.fst).Nodup ∧
    ∀ nm ∈ p.messages, MessageOut p.ns nm.2
  schema : ∀ s, r.1 = .schema s → ∃ ns, TypeOut ns s
  named : ∀ ss, r.1 = .named ss → ss = DeclItem.types r.2

section
variable [CharTables] [FloatTables] [CaseTables]

omit [CharTables] [FloatTables] [CaseTables] in
theorem checkDefault_ok (field : String) (sp : Option Span) (d : Option Json) (t : Schema) :
    Post (checkDefault field sp d t) fun _ => ∀ v, d = some v → validateDefault v t = none := by
  unfold checkDefault
  split
  · exact .pure (by simp)
  · split
    · rename_i h; exact .pure (by rintro v ⟨⟩; exact h)
    · exact .fail

omit [CharTables] [CaseTables] in
theorem walkDefault_held {v : Option JVal} {d : Option Json} (h : walkDefault v = .ok d) :
    ∀ j, d = some j → Held j := by
  rintro j rfl
  unfold walkDefault at h
  cases v with
  | none => cases h
  | some v =>
    simp only at h
    cases hw : walkJson v with
    | error e => rw [hw] at h; cases h
    | ok j' => rw [hw] at h; cases h; exact walkJson_held v j hw

theorem walkVariable_out (tokens : List Token) {ns : Option String} {t : Schema}
    (ht : TypeOut ns t) (doc : Option String) (v : VarDecl) :
    Post (walkVariable tokens t doc v) fun f => FieldOut ns f ∧ f.name = identifierText v.ident := by
  unfold walkVariable
  refine (Post.any _).bind fun vd _ => ?_
  refine (walkAnnots_ok variableCtx v.annots {} (annotOk_nil _)).bind fun p hp => ?_
  refine (Post.lift fun d hd => walkDefault_held hd).bind fun d hd => ?_
  refine (checkDefault_ok _ _ _ _).bind fun _ hc => ?_
  exact .pure ⟨⟨⟨t, ht, rfl⟩, hc, hp, hd⟩, rfl⟩

theorem walkVariables_out (tokens : List Token) {ns : Option String} {t : Schema}
    (ht : TypeOut ns t) (doc : Option String) : ∀ vs : List VarDecl,
    Post (walkVariables tokens t doc vs) fun fs => ∀ f ∈ fs, FieldOut ns f
  | [] => .pure (by simp)
  | v :: vs => by
      refine (walkVariable_out tokens ht doc v).bind fun f hf => ?_
      refine (walkVariables_out tokens ht doc vs).bind fun fs hfs => .pure fun x hx => ?_
      rcases List.mem_cons.mp hx with e | e
      · rw [e]; exact hf.1
      · exact hfs x e

theorem walkField_out (tokens : List Token) (ns : Option String) (d : FieldDecl) :
    Post (walkField tokens ns d) fun fs => ∀ f ∈ fs, FieldOut ns f := by
  unfold walkField
  refine (Post.any _).bind fun doc _ => ?_
  exact (walkFullType_out ns d.type).bind fun t ht => walkVariables_out tokens ht doc d.vars

omit [CharTables] [FloatTables] [CaseTables] in
theorem checkFieldNames_ok (record : String) : ∀ (fs : List Field) (seen : List String)
    (sps : List (Option Span)), Post (checkFieldNames record seen fs sps) fun seen' =>
      seen' = seen ++ fs.map Field.name ∧ (seen.Nodup → seen'.Nodup)
  | [], seen, _ => .pure (by simp)
  | f :: fs, seen, sps => by
      simp only [checkFieldNames]
      split
      · exact .fail
      · rename_i h
        refine (checkFieldNames_ok record fs _ _).mono fun s hs => ?_
        refine ⟨by rw [hs.1]; simp, fun hn => hs.2 ?_⟩
        rw [List.nodup_append]
        refine ⟨hn, by simp, fun a ha b hb e => h ?_⟩
        simp only [List.mem_singleton] at hb
        rw [hb] at e; subst e; simpa using ha

theorem walkFields_out (tokens : List Token) (ns : Option String) (record : String) :
    ∀ (ds : List FieldDecl) (seen : List String),
    Post (walkFields tokens ns record seen ds) fun fs => (∀ f ∈ fs, FieldOut ns f) ∧
      (seen.Nodup → (seen ++ fs.map Field.name).Nodup)
  | [], seen => .pure (by simp)
  | d :: ds, seen => by
      refine (walkField_out tokens ns d).bind fun fs hfs => ?_
      refine (checkFieldNames_ok record fs seen _).bind fun seen' hs => ?_
      refine (walkFields_out tokens ns record ds seen').bind fun rest hr => .pure ?_
      refine ⟨fun f hf => ?_, fun hn => ?_⟩
      · rcases List.mem_append.mp hf with h | h
        · exact hfs f h
        · exact hr.1 f h
      · have := hr.2 (hs.2 hn)
        rw [hs.1] at this
        simpa using this

theorem recordIn_out (tokens : List Token) (ns : Option String) (d : RecordDecl) :
    Post (recordIn tokens ns d) NamedOut := by
  unfold recordIn
  refine (Post.any _).bind fun doc _ => ?_
  refine (walkAnnots_ok namedCtx d.annots {} (annotOk_nil _)).bind fun p hp => ?_
  refine Post.failIf.bind fun _ hi => ?_
  refine (walkFields_out tokens _ _ d.fields []).bind fun fs hfs => .pure ?_
  exact .record _ _ _ _ _ _ _ hi (splitFullName_fst_dotfree _) hfs.1
    (by simpa using hfs.2 List.nodup_nil) hp

omit [CharTables] [FloatTables] [CaseTables] in
theorem checkSymbols_ok : ∀ (ss : List (String × Option Span)) (seen : List String),
    Post (checkSymbols seen ss) fun out =>
      out = seen ++ ss.map (fun s => identifierText s.1) ∧ (seen.Nodup → out.Nodup)
  | [], seen => .pure (by simp)
  | s :: ss, seen => by
      simp only [checkSymbols]
      split
      · exact .fail
      · rename_i h
        refine (checkSymbols_ok ss _).mono fun o ho => ?_
        refine ⟨by rw [ho.1]; simp, fun hn => ho.2 ?_⟩
        rw [List.nodup_append]
        refine ⟨hn, by simp, fun a ha b hb e => h ?_⟩
        simp only [List.mem_singleton] at hb
        rw [hb] at e; subst e; simpa using ha

omit [CharTables] [FloatTables] [CaseTables] in
theorem checkEnumDefault_ok (sy : List String) (d : Option (String × Option Span)) :
    Post (checkEnumDefault sy d) fun o =>
      o = d.map (fun s => identifierText s.1) ∧ ∀ x, o = some x → x ∈ sy := by
  unfold checkEnumDefault
  split
  · exact .pure (by simp)
  · split
    · rename_i h; exact .pure ⟨rfl, by rintro x ⟨⟩; simpa using h⟩
    · exact .fail

theorem walkEnum_out (tokens : List Token) (ns : Option String) (d : EnumDecl) :
    Post (walkEnum tokens ns d) NamedOut := by
  unfold walkEnum
  refine (Post.any _).bind fun doc _ => ?_
  refine (walkAnnots_ok enumCtx d.annots {} (annotOk_nil _)).bind fun p hp => ?_
  refine Post.failIf.bind fun _ hi => ?_
  refine (checkSymbols_ok d.symbols []).bind fun sy hs => ?_
  refine (checkEnumDefault_ok sy d.default).bind fun df hd => .pure ?_
  exact .enum _ _ _ _ _ _ _ hi (splitFullName_fst_dotfree _) (hs.2 List.nodup_nil) hd.2 hp

theorem walkFixed_out (tokens : List Token) (ns : Option String) (d : FixedDecl) :
    Post (walkFixed tokens ns d) NamedOut := by
  unfold walkFixed
  refine (Post.any _).bind fun doc _ => ?_
  refine (walkAnnots_ok namedCtx d.annots {} (annotOk_nil _)).bind fun p hp => ?_
  refine Post.failIf.bind fun _ hi => ?_
  split
  · exact .fail
  · rename_i n h
    exact .pure (.fixed _ _ _ _ _ _ hi (splitFullName_fst_dotfree _) (parseIntegerAsU32_lt h) hp)

theorem namedIn_out (tokens : List Token) (ns : Option String) (d : NamedDecl) :
    Post (namedIn tokens ns d) NamedOut := by
  cases d with
  | record d => exact recordIn_out tokens ns d
  | enum d => exact walkEnum_out tokens ns d
  | fixed d => exact walkFixed_out tokens ns d

theorem walkParams_out (tokens : List Token) (ns : Option String) (message : String) :
    ∀ (ps : List Param) (seen : List String),
    Post (walkParams tokens ns message seen ps) fun fs => (∀ f ∈ fs, FieldOut ns f) ∧
      (seen.Nodup → (seen ++ fs.map Field.name).Nodup)
  | [], seen => .pure (by simp)
  | p :: ps, seen => by
      refine (Post.any _).bind fun doc _ => ?_
      refine (walkFullType_out ns p.type).bind fun t ht => ?_
      refine (walkVariable_out tokens ht doc p.var).bind fun f hf => ?_
      split
      · exact .fail
      · rename_i h
        refine (walkParams_out tokens ns message ps _).bind fun rest hr => .pure ?_
        refine ⟨fun x hx => ?_, fun hn => ?_⟩
        · rcases List.mem_cons.mp hx with e | e
          · rw [e]; exact hf.1
          · exact hr.1 x e
        · have h1 : (seen ++ [f.name]).Nodup := by
            rw [List.nodup_append]
            refine ⟨hn, by simp, fun a ha b hb e => h ?_⟩
            simp only [List.mem_singleton] at hb
            rw [hb] at e; subst e; simpa using ha
          simpa using hr.2 h1

theorem walkResult_out (ns : Option String) (t : Option PlainType) :
    Post (walkResult ns t) (TypeOut ns) := by
  cases t with
  | none => exact .pure (.prim .null)
  | some t => exact walkPlainType_out ns t

theorem walkMessage_out (tokens : List Token) (ns : Option String) (d : MessageDecl) :
    Post (walkMessage tokens ns d) fun nm => MessageOut ns nm.2 := by
  unfold walkMessage
  refine (Post.any _).bind fun doc _ => ?_
  refine (walkAnnots_ok messageCtx d.annots {} (annotOk_nil _)).bind fun p hp => ?_
  refine (walkResult_out ns d.result).bind fun resp hr => ?_
  refine (Post.any _).bind fun _ _ => ?_
  refine (walkParams_out tokens ns _ d.params []).bind fun req hq => ?_
  refine Post.failIf.bind fun _ ho => .pure ?_
  refine ⟨hq.1, by simpa using hq.2 List.nodup_nil, hr, ?_, ?_, hp⟩
  · intro es hes e he
    change messageErrors ns d.errors = some es at hes
    cases hd : d.errors with
    | nil => rw [hd] at hes; cases hes
    | cons a as =>
      rw [hd] at hes
      simp only [messageErrors, Option.some.injEq] at hes
      rw [← hes] at he
      obtain ⟨x, -, rfl⟩ := List.mem_map.mp he
      exact ⟨_, _, rfl⟩
  · intro h
    change d.oneway = true at h
    exact isNull_iff.mp (by simpa [h] using ho)

omit [CharTables] [FloatTables] [CaseTables] in
theorem insertMessage_keys {ms : List (String × Message)} (h : (ms.map Prod.fst).Nodup)
    (n : String) (m : Message) : ((insertMessage ms n m).map Prod.fst).Nodup := by
  unfold insertMessage
  rw [List.map_append, List.nodup_append]
  refine ⟨List.Nodup.sublist (List.Sublist.map _ List.filter_sublist) h, by simp,
    fun a ha b hb => ?_⟩
  simp only [List.map_cons, List.map_nil, List.mem_singleton] at hb
  subst hb
  obtain ⟨x, hx, rfl⟩ := List.mem_map.mp ha
  have := (List.mem_filter.mp hx).2
  simpa using this

omit [CharTables] [FloatTables] [CaseTables] in
theorem mem_insertMessage {ms : List (String × Message)} {n : String} {m : Message}
    {x : String × Message} (h : x ∈ insertMessage ms n m) : x ∈ ms ∨ x = (n, m) := by
  unfold insertMessage at h
  rcases List.mem_append.mp h with h | h
  · exact Or.inl (List.mem_filter.mp h).1
  · exact Or.inr (by simpa using h)

/-- What holds of the messages collected so far. -/
def MessagesOut (ns : Option String) (ms : List (String × Message)) : Prop :=
  (ms.map Prod.fst).Nodup ∧ ∀ nm ∈ ms, MessageOut ns nm.2

theorem bodyIn_out (tokens : List Token) (ns : Option String) :
    ∀ (items : List BodyItem) (ms : List (String × Message)), MessagesOut ns ms →
    Post (bodyIn tokens ns ms items) fun r => MessagesOut ns r.1 ∧
      ∀ s ∈ DeclItem.types r.2, NamedOut s
  | [], ms, h => .pure ⟨h, by simp [DeclItem.types]⟩
  | .import_ i :: items, ms, h => by
      refine (bodyIn_out tokens ns items ms h).bind fun r hr => .pure ⟨hr.1, fun s hs => ?_⟩
      exact hr.2 s (by simpa [DeclItem.types] using hs)
  | .named d span :: items, ms, h => by
      refine (namedIn_out tokens ns d).bind fun s hs => ?_
      refine (bodyIn_out tokens ns items ms h).bind fun r hr => .pure ⟨hr.1, fun t ht => ?_⟩
      simp only [DeclItem.types, List.filterMap_cons, List.mem_cons] at ht
      rcases ht with e | e
      · rw [e]; exact hs
      · exact hr.2 t e
  | .message m :: items, ms, h => by
      refine (walkMessage_out tokens ns m).bind fun nm hm => ?_
      refine bodyIn_out tokens ns items _ ⟨insertMessage_keys h.1 _ _, fun x hx => ?_⟩
      rcases mem_insertMessage hx with e | e
      · exact h.2 x e
      · rw [e]; exact hm

theorem itemsIn_out (tokens : List Token) (ns : Option String) :
    ∀ items : List FileItem, Post (itemsIn tokens ns items) fun r =>
      r.1 = DeclItem.types r.2 ∧ ∀ s ∈ DeclItem.types r.2, NamedOut s
  | [] => .pure (by simp [DeclItem.types])
  | .import_ i :: items => by
      refine (itemsIn_out tokens ns items).bind fun r hr => .pure ⟨?_, fun s hs => ?_⟩
      · simpa [DeclItem.types] using hr.1
      · exact hr.2 s (by simpa [DeclItem.types] using hs)
  | .named d span :: items => by
      refine (namedIn_out tokens ns d).bind fun s hs => ?_
      refine (itemsIn_out tokens ns items).bind fun r hr => .pure ⟨?_, fun t ht => ?_⟩
      · simp only [DeclItem.types, List.filterMap_cons]
        rw [hr.1]; rfl
      · simp only [DeclItem.types, List.filterMap_cons, List.mem_cons] at ht
        rcases ht with e | e
        · rw [e]; exact hs
        · exact hr.2 t e

theorem fileIn_out (tokens : List Token) (f : FileAst) : Post (fileIn tokens f) FileOut := by
  cases f with
  | protocol d =>
    simp only [fileIn, protocolIn]
    refine Post.bind (P := fun r => FileOut (.protocol r.1, r.2)) ?_ fun r hr => .pure hr
    refine (Post.any _).bind fun doc _ => ?_
    refine (walkAnnots_ok protocolCtx d.annots {} (annotOk_nil _)).bind fun p hp => ?_
    refine Post.failIf.bind fun _ hi => ?_
    refine (bodyIn_out tokens _ d.body [] ⟨by simp, by simp⟩).bind fun r hr => .pure ?_
    refine ⟨hr.2, ?_, by simp, by simp⟩
    rintro q ⟨⟩
    exact ⟨rfl, hi, splitFullName_fst_dotfree _, hp, hr.1.1, hr.1.2⟩
  | schema ns main body =>
    simp only [fileIn]
    refine (itemsIn_out tokens _ body).bind fun r hr => ?_
    cases main with
    | none => exact .pure ⟨hr.2, by simp, by simp, by rintro ss ⟨⟩; exact hr.1⟩
    | some t =>
      refine (walkFullType_out _ t).bind fun s hs => .pure ?_
      exact ⟨hr.2, by simp, by rintro s ⟨⟩; exact ⟨_, hs⟩, by simp⟩

/-- Everything `readFile` returns has the stated form. -/
theorem readFile_out {tokens : List Token} {ast : FileAst} {r : ReadResult}
    (h : readFile tokens ast = .ok r) : FileOut (r.file, r.decls) := by
  unfold readFile at h
  split at h
  · cases h
  · rename_i r' log hw
    injection h with h; subst h
    rw [walkFile_eq] at hw
    exact fileIn_out tokens ast _ _ _ hw

end
end Avdl
