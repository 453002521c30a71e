import Verif.Spec.Annotation
import Verif.Props.ReaderTypes
import Verif.Lemmas.SerEvents
/-!
# C16, C17: annotations
-/

namespace Avdl.Props
open Spec

/-! ### Property maps -/

theorem get?_none_iff {p : List (String × Json)} {k : String} :
    JMap.get? p k = none ↔ k ∉ p.map Prod.fst := by
  induction p with
  | nil => simp [JMap.get?]
  | cons kv t ih =>
    simp only [JMap.get?]
    split
    · rename_i h; simp [h]
    · rename_i h
      rw [ih]; simp [Ne.symm h]

theorem get?_append (p q : List (String × Json)) (k : String) :
    JMap.get? (p ++ q) k = (JMap.get? p k).or (JMap.get? q k) := by
  induction p with
  | nil => rfl
  | cons kv t ih =>
    simp only [List.cons_append, JMap.get?]
    split
    · rfl
    · exact ih

theorem get?_erase (p : Props) (k j : String) :
    (p.erase k).get? j = if j = k then none else p.get? j := by
  unfold Props.erase Props.get?
  induction p with
  | nil => simp [JMap.get?]
  | cons kv t ih =>
    obtain ⟨a, b⟩ := kv
    by_cases h : a = k
    · subst h
      simp only [List.filter_cons, ne_eq, not_true, decide_false, Bool.false_eq_true, if_false, ih,
        JMap.get?]
      split
      · rfl
      · rename_i hj; rw [if_neg (Ne.symm hj)]
    · rw [List.filter_cons, if_pos (by simpa using h)]
      simp only [JMap.get?, ih]
      split
      · rename_i ha; subst ha; rw [if_neg h]
      · rfl

theorem get?_insert (p : Props) (k : String) (v : Json) (j : String) :
    (p.insert k v).get? j = if j = k then some v else p.get? j := by
  unfold Props.insert
  have := get?_erase p k j
  unfold Props.get? at *
  rw [get?_append, this]
  by_cases h : j = k
  · simp [h, JMap.get?]
  · simp [h, JMap.get?, Ne.symm h]

section
variable [CharTables] [FloatTables] [CaseTables]

/-! ### C16: from the source to the property map -/

omit [FloatTables] in
theorem annotStep_spec (ctx : PropCtx) (acc : SchemaProps) (name : String) (v : Json)
    (sp : Option Span) : Post (annotStep ctx acc name v sp) fun p =>
      (Special ctx name ∨ name ∉ ctx.reserved) ∧
      ∀ k, p.props.get? k =
        if k = name ∧ ¬ Special ctx name then some v else acc.props.get? k := by
  unfold annotStep
  split
  · rename_i h
    simp only [Bool.and_eq_true, beq_iff_eq] at h
    have hs : Special ctx name := Or.inl h
    split
    · exact .pure ⟨Or.inl hs, fun k => by simp [hs]⟩
    · exact .fail
  · rename_i h1
    split
    · rename_i h
      simp only [Bool.and_eq_true, beq_iff_eq] at h
      have hs : Special ctx name := Or.inr (Or.inl h)
      split
      · exact (Post.any _).bind fun _ _ => .pure ⟨Or.inl hs, fun k => by simp [hs]⟩
      · exact .fail
    · rename_i h2
      split
      · rename_i h
        simp only [Bool.and_eq_true, beq_iff_eq] at h
        have hs : Special ctx name := Or.inr (Or.inr h)
        split
        · exact .pure ⟨Or.inl hs, fun k => by simp [hs]⟩
        · exact .fail
      · rename_i h3
        split
        · exact .fail
        · rename_i hr
          have hs : ¬ Special ctx name := by
            simp only [Bool.and_eq_true, beq_iff_eq] at h1 h2 h3
            rintro (h | h | h)
            · exact h1 h
            · exact h2 h
            · exact h3 h
          refine .pure ⟨Or.inr (by simpa using hr), fun k => ?_⟩
          simp [get?_insert, hs]

theorem walkAnnots_spec (ctx : PropCtx) (as : List Annot) : ∀ acc : SchemaProps,
    Post (walkAnnots ctx acc as) fun p =>
      (∀ a ∈ as, Special ctx (identifierText a.name) ∨ identifierText a.name ∉ ctx.reserved) ∧
      ∀ k, ¬ Special ctx k → match lastAnnotation k as with
        | some v => ∃ j, walkJson v = .ok j ∧ p.props.get? k = some j
        | none => p.props.get? k = acc.props.get? k := by
  induction as with
  | nil => intro acc; exact .pure ⟨by simp, fun k _ => rfl⟩
  | cons a as ih =>
    intro acc
    refine (Post.lift fun v hv => hv).bind fun v hv => ?_
    refine (annotStep_spec ctx acc (identifierText a.name) v _).bind fun acc' ha => ?_
    refine (ih acc').mono fun p hp => ⟨fun b hb => ?_, fun k hk => ?_⟩
    · rcases List.mem_cons.mp hb with e | e
      · rw [e]; exact ha.1
      · exact hp.1 b e
    · have := hp.2 k hk
      simp only [lastAnnotation]
      cases hl : lastAnnotation k as with
      | some w => rw [hl] at this; exact this
      | none =>
        rw [hl] at this
        simp only at this ⊢
        rw [ha.2 k] at this
        by_cases hn : identifierText a.name = k
        · rw [if_pos hn]
          rw [if_pos ⟨hn.symm, hn ▸ hk⟩] at this
          exact ⟨v, hv, this⟩
        · rw [if_neg hn]
          rw [if_neg (fun h => hn h.1.symm)] at this
          exact this

/-- **C16, acceptance.** In every context, an annotation list is accepted only if no annotation has
a reserved name; then the custom properties are exactly the annotations with other than special
names, the last one winning, with the values written. -/
theorem C16_annotations_collected (ctx : PropCtx) (as : List Annot) (l l' : Log) (p : SchemaProps)
    (h : walkAnnots ctx {} as l = .ok (p, l')) :
    (∀ a ∈ as, Special ctx (identifierText a.name) ∨ identifierText a.name ∉ ctx.reserved) ∧
    p.props.Wf ∧ (∀ kv ∈ p.props, kv.1 ∉ ctx.reserved) ∧
    ∀ k, ¬ Special ctx k → match lastAnnotation k as with
      | some v => ∃ j, walkJson v = .ok j ∧ p.props.get? k = some j
      | none => p.props.get? k = none := by
  obtain ⟨h1, h2⟩ := walkAnnots_spec ctx as {} l p l' h
  have h3 := walkAnnots_ok ctx as {} (annotOk_nil _) l p l' h
  exact ⟨h1, h3.1.1, h3.2, h2⟩

/-- **C16, rejection.** A reserved annotation name is never accepted. -/
theorem C16_reserved_rejected (ctx : PropCtx) (as : List Annot) (a : Annot) (ha : a ∈ as)
    (hr : identifierText a.name ∈ ctx.reserved) (hs : ¬ Special ctx (identifierText a.name))
    (l : Log) : ∃ e, walkAnnots ctx {} as l = .error e := by
  cases h : walkAnnots ctx {} as l with
  | error e => exact ⟨e, rfl⟩
  | ok r =>
    obtain ⟨p, l'⟩ := r
    rcases (C16_annotations_collected ctx as l l' p h).1 a ha with h | h
    · exact absurd h hs
    · exact absurd hr h

end

/-! ### C16: from the property map to the output -/

/-- An object built from structural entries and then the custom properties. -/
theorem shows_insertAll {base : JMap} {st : List (String × Option Json)} {ps : Props}
    (h1 : ∀ kv ∈ st, base.get? kv.1 = kv.2) (h2 : ∀ k, k ∉ st.map Prod.fst → base.get? k = none)
    (hw : ps.Wf) (ha : ps.Avoids (st.map Prod.fst)) : Shows (base.insertAll ps) st ps := by
  refine ⟨fun kv hk => ?_, fun kv hk => ?_, fun k hk hp => ?_⟩
  · rw [JMap.get?_insertAll _ _ hw, get?_none_iff.mpr]
    · exact h1 kv hk
    · intro hc
      obtain ⟨x, hx, he⟩ := List.mem_map.mp hc
      exact ha x hx (he ▸ List.mem_map_of_mem hk)
  · rw [JMap.get?_insertAll _ _ hw, JMap.get?_eq_some_of_nodup hw (v := kv.2) hk]
    rfl
  · rw [JMap.get?_insertAll _ _ hw, get?_none_iff.mpr hp]
    exact h2 k hk

/-- Adding one more structural entry afterwards. -/
theorem shows_insert {o : JMap} {st : List (String × Option Json)} {ps : Props} {k : String}
    {v : Json} (h : Shows o st ps) (hk : k ∉ st.map Prod.fst) (hp : k ∉ ps.map Prod.fst) :
    Shows (JMap.insert k v o) ((k, some v) :: st) ps := by
  refine ⟨fun kv hm => ?_, fun kv hm => ?_, fun j hj hjp => ?_⟩
  · rcases List.mem_cons.mp hm with e | e
    · subst e; simp [JMap.get?_insert]
    · rw [JMap.get?_insert, if_neg]
      · exact h.structural kv e
      · intro he; exact hk (he ▸ List.mem_map_of_mem e)
  · rw [JMap.get?_insert, if_neg]
    · exact h.custom kv hm
    · intro he; exact hp (he ▸ List.mem_map_of_mem hm)
  · simp only [List.map_cons, List.mem_cons, not_or] at hj
    rw [JMap.get?_insert, if_neg hj.1]
    exact h.nothingElse j hj.2 hjp

/-- No entry for a key that does not occur. -/
theorem shows_none {o : JMap} {st : List (String × Option Json)} {ps : Props} {k : String}
    (h : Shows o st ps) (hk : k ∉ st.map Prod.fst) (hp : k ∉ ps.map Prod.fst) :
    Shows o ((k, none) :: st) ps := by
  refine ⟨fun kv hm => ?_, h.custom, fun j hj hjp => ?_⟩
  · rcases List.mem_cons.mp hm with e | e
    · subst e; exact h.nothingElse _ hk hp
    · exact h.structural kv e
  · simp only [List.map_cons, List.mem_cons, not_or] at hj
    exact h.nothingElse j hj.2 hjp

theorem avoids_keys {ps : Props} {ks : List String} (h : ps.Avoids ks) {k : String} (hk : k ∈ ks) :
    k ∉ ps.map Prod.fst := by
  intro hc
  obtain ⟨x, hx, he⟩ := List.mem_map.mp hc
  exact h x hx (he ▸ hk)

theorem avoids_sub {ps : Props} {ks ks' : List String} (h : ps.Avoids ks) (hs : ∀ k ∈ ks', k ∈ ks) :
    ps.Avoids ks' := fun kv hkv hc => h kv hkv (hs _ hc)

/-- The `aliases` entry. -/
def aliasesEntry (aliases : List String) : Option Json :=
  if aliases = [] then none else some (.arr (aliases.map .str))

/-- The structural entries of a field whose type is written as `type`. -/
def fieldEntries (f : Field) (type : Json) : List (String × Option Json) :=
  [("name", some (.str f.name)), ("type", some type), ("doc", f.doc.map .str),
   ("default", f.default),
   ("order", match f.order with
     | some .descending => some (.str "descending")
     | some .ignore => some (.str "ignore")
     | _ => none),
   ("aliases", aliasesEntry f.aliases)]

/-- Fields. -/
theorem fieldObj_shows (f : Field) (type : Json) (h : AnnotOk fieldReserved f.props) :
    Shows (fieldObj f type) (fieldEntries f type) f.props := by
  obtain ⟨n, s, d, df, o, al, ps⟩ := f
  refine shows_insertAll ?_ ?_ h.1.1 (avoids_sub h.2 (by simp [fieldEntries, fieldReserved]))
  · intro kv hk
    simp only [fieldEntries, List.mem_cons, List.not_mem_nil, or_false] at hk
    rcases hk with rfl | rfl | rfl | rfl | rfl | rfl <;>
      cases d <;> cases df <;> rcases o with _ | _ | _ | _ <;> cases al <;>
      simp [aliasesEntry, orderEntry, Field.name, Field.doc, Field.default, Field.order,
        Field.aliases, JMap.get?_insert, JMap.get?]
  · intro k hk
    simp only [fieldEntries, List.map_cons, List.map_nil, List.mem_cons, List.not_mem_nil,
      or_false, not_or] at hk
    cases d <;> cases df <;> rcases o with _ | _ | _ | _ <;> cases al <;>
      simp [orderEntry, Field.name, Field.doc, Field.default, Field.order,
        Field.aliases, JMap.get?_insert, JMap.get?, hk]

/-- The entries all named types have. -/
def namedEntries (type name : String) (ns : Option Json) (doc : Option String) :
    List (String × Option Json) :=
  [("type", some (.str type)), ("name", some (.str name)), ("namespace", ns),
   ("doc", doc.map .str)]

/-- The `doc` entry. -/
def addDoc (doc : Option String) (o : JMap) : JMap :=
  match doc with
  | some d => JMap.insert "doc" (.str d) o
  | none => o

theorem addDoc_shows {t n : String} {doc : Option String} {nsv : Option Json} {o : JMap}
    (ho : ∀ k, o.get? k = if k = "namespace" then nsv else
      (JMap.insert "name" (.str n) (JMap.insert "type" (.str t) [])).get? k) :
    Shows (addDoc doc o) (namedEntries t n nsv doc) [] := by
  refine ⟨fun kv hk => ?_, by simp, fun k hk _ => ?_⟩
  · simp only [namedEntries, List.mem_cons, List.not_mem_nil, or_false] at hk
    rcases hk with rfl | rfl | rfl | rfl <;> cases doc <;>
      simp [addDoc, JMap.get?_insert, JMap.get?, ho]
  · simp only [namedEntries, List.map_cons, List.map_nil, List.mem_cons, List.not_mem_nil,
      or_false, not_or] at hk
    cases doc <;> simp [addDoc, JMap.get?_insert, JMap.get?, ho, hk]

/-- The object begun by `named_type_preamble`. -/
theorem preamble_shows {t n : String} {ns doc encl : Option String} {K K1 : Known} {obj : JMap}
    (h : namedTypePreamble t n ns doc K encl = .ok (obj, K1)) :
    ∃ nsv, (nsv = none ∨ nsv = ns.map Json.str) ∧ Shows obj (namedEntries t n nsv doc) [] := by
  have h0 : ∀ k, (JMap.insert "name" (.str n) (JMap.insert "type" (.str t) [])).get? k =
      if k = "namespace" then none else
        (JMap.insert "name" (.str n) (JMap.insert "type" (.str t) [])).get? k := by
    intro k
    split
    · rename_i hk; rw [hk]; simp [JMap.get?_insert, JMap.get?]
    · rfl
  unfold namedTypePreamble at h
  simp only at h
  split at h
  · cases h
  · injection h with h
    injection h with h _
    cases ns with
    | none =>
      refine ⟨none, Or.inl rfl, ?_⟩
      rw [← h]
      exact addDoc_shows h0
    | some x =>
      simp only at h
      by_cases hc : some x ≠ encl ∧ ¬ (x = "" ∧ encl = none)
      · rw [if_pos hc] at h
        refine ⟨some (.str x), Or.inr rfl, ?_⟩
        rw [← h]
        exact addDoc_shows fun k => by rw [JMap.get?_insert]
      · rw [if_neg hc] at h
        refine ⟨none, Or.inl rfl, ?_⟩
        rw [← h]
        exact addDoc_shows h0

/-- The aliases of a named type: shortened where they are in the type's namespace. -/
def namedAliases (aliases : List String) (ns : Option String) : Option Json :=
  if aliases = [] then none else some (.arr (aliases.map fun a => .str (aliasRefName a ns)))

theorem finish_shows {obj : JMap} {st : List (String × Option Json)} {ps : Props}
    {al : List String} {ns : Option String} (h : Shows obj st []) (hw : ps.Wf)
    (ha : ps.Avoids (st.map Prod.fst)) (hal : "aliases" ∉ st.map Prod.fst)
    (hap : "aliases" ∉ ps.map Prod.fst) :
    Shows (finishNamedType obj ps al ns) (("aliases", namedAliases al ns) :: st) ps := by
  have h1 : Shows (obj.insertAll ps) st ps :=
    shows_insertAll h.structural (fun k hk => h.nothingElse k hk (by simp)) hw ha
  unfold finishNamedType namedAliases
  simp only
  split
  · exact shows_none h1 hal hap
  · exact shows_insert h1 hal hap

theorem mapAccum_get {α β : Type} {f : α → Known → Option (β × Known)} {l : List α} {K K' : Known}
    {out : List β} (h : mapAccum f l K = some (out, K')) :
    out.length = l.length ∧ ∀ (i : Nat) a, l[i]? = some a → ∃ b K1 K2, out[i]? = some b ∧
      f a K1 = some (b, K2) := by
  induction l generalizing K K' out with
  | nil =>
    simp only [mapAccum, Option.some.injEq, Prod.mk.injEq] at h
    rw [← h.1]; simp
  | cons a as ih =>
    simp only [mapAccum] at h
    cases hf : f a K with
    | none => rw [hf] at h; cases h
    | some r =>
      obtain ⟨b, K1⟩ := r
      rw [hf] at h
      simp only at h
      cases hm : mapAccum f as K1 with
      | none => rw [hm] at h; cases h
      | some r =>
        obtain ⟨bs, K2⟩ := r
        rw [hm] at h
        simp only [Option.some.injEq, Prod.mk.injEq] at h
        obtain ⟨h1, h2⟩ := ih hm
        rw [← h.1]
        refine ⟨by simp [h1], fun i x hx => ?_⟩
        cases i with
        | zero =>
          simp only [List.getElem?_cons_zero, Option.some.injEq] at hx
          subst hx
          exact ⟨b, K, K1, by simp, hf⟩
        | succ i =>
          simp only [List.getElem?_cons_succ] at hx ⊢
          exact h2 i x hx

/-- The written fields match the fields. -/
def FieldsShown (fs : List Field) (written : List Json) : Prop :=
  written.length = fs.length ∧ ∀ (i : Nat) f, fs[i]? = some f →
    ∃ type fo, written[i]? = some (Json.obj fo) ∧ Shows fo (fieldEntries f type) f.props

theorem fields_shown {ser : Schema → Known → Option (Json × Known)} {fs : List Field}
    {K K' : Known} {fj : List Json} (h : mapAccum (fieldToJson ser) fs K = some (fj, K'))
    (hf : ∀ f ∈ fs, AnnotOk fieldReserved f.props) : FieldsShown fs fj := by
  obtain ⟨h1, h2⟩ := mapAccum_get h
  refine ⟨h1, fun i f hi => ?_⟩
  obtain ⟨b, K1, K2, hb, hs⟩ := h2 i f hi
  unfold fieldToJson at hs
  split at hs
  · cases hs
  · rename_i j K3 hj
    simp only [Option.some.injEq, Prod.mk.injEq] at hs
    exact ⟨j, fieldObj f j, by rw [hb, ← hs.1], fieldObj_shows f j (hf f (List.mem_of_getElem? hi))⟩

section
variable [CharTables] [FloatTables] [CaseTables]

/-- **C16, records.** Where a declared record is written as a definition, its structural entries
and those of its fields are intact, its annotations are there under their own names, and nothing
else is. -/
theorem C16_record_output (tokens : List Token) (ast : FileAst) (r : ReadResult)
    (h : readFile tokens ast = .ok r) (n : String) (ns d : Option String) (fs : List Field)
    (e : Bool) (al : List String) (ps : Props) (hd : Declares r (.record n ns d fs e al ps))
    (lk : Lookup) (fuel : Nat) (encl : Option String) (K K' : Known) (o : JMap)
    (hj : schemaToJson lk fuel (.record n ns d fs e al ps) encl K = some (.obj o, K')) :
    ∃ nsv fj, (nsv = none ∨ nsv = ns.map Json.str) ∧ FieldsShown fs fj ∧
      Shows o (("aliases", namedAliases al ns) :: ("fields", some (.arr fj)) ::
        namedEntries (if e then "error" else "record") n nsv d) ps := by
  cases declares_out h hd with
  | record _ _ _ _ _ _ _ _ _ hfs _ hp =>
    cases fuel with
    | zero => cases hj
    | succ fuel =>
      simp only [schemaToJson] at hj
      split at hj
      · rename_i bare hb
        obtain ⟨-, rfl⟩ := preamble_error hb
        simp at hj
      · rename_i obj K1 hb
        split at hj
        · cases hj
        · rename_i fj K2 hm
          simp only [Option.some.injEq, Prod.mk.injEq, Json.obj.injEq] at hj
          obtain ⟨nsv, hns, hs⟩ := preamble_shows hb
          refine ⟨nsv, fj, hns, fields_shown hm fun f hf => (hfs f hf).props, ?_⟩
          rw [← hj.1]
          refine finish_shows (shows_insert hs ?_ (by simp)) hp.1.1 (avoids_sub hp.2 ?_) ?_
            (avoids_keys hp.2 (by decide))
          · simp [namedEntries]
          · simp [namedEntries, schemaReserved]
          · simp [namedEntries]

/-- **C16, enums.** -/
theorem C16_enum_output (tokens : List Token) (ast : FileAst) (r : ReadResult)
    (h : readFile tokens ast = .ok r) (n : String) (ns d : Option String) (sy : List String)
    (df : Option String) (al : List String) (ps : Props)
    (hd : Declares r (.enum n ns d sy df al ps)) (lk : Lookup) (fuel : Nat)
    (encl : Option String) (K K' : Known) (o : JMap)
    (hj : schemaToJson lk fuel (.enum n ns d sy df al ps) encl K = some (.obj o, K')) :
    ∃ nsv, (nsv = none ∨ nsv = ns.map Json.str) ∧
      Shows o (("aliases", namedAliases al ns) :: ("default", df.map .str) ::
        ("symbols", some (.arr (sy.map .str))) :: namedEntries "enum" n nsv d) ps := by
  cases declares_out h hd with
  | enum _ _ _ _ _ _ _ _ _ _ _ hp =>
    cases fuel with
    | zero => cases hj
    | succ fuel =>
      simp only [schemaToJson] at hj
      split at hj
      · rename_i bare hb
        obtain ⟨-, rfl⟩ := preamble_error hb
        simp at hj
      · rename_i obj K1 hb
        simp only [Option.some.injEq, Prod.mk.injEq, Json.obj.injEq] at hj
        obtain ⟨nsv, hns, hs⟩ := preamble_shows hb
        refine ⟨nsv, hns, ?_⟩
        rw [← hj.1]
        have hs1 := shows_insert (k := "symbols") (v := .arr (sy.map .str)) hs
          (by simp [namedEntries]) (by simp)
        have hs2 : Shows (enumObj sy df obj) (("default", df.map .str) ::
            ("symbols", some (.arr (sy.map .str))) :: namedEntries "enum" n nsv d) [] := by
          unfold enumObj
          cases df with
          | none => exact shows_none hs1 (by simp [namedEntries]) (by simp)
          | some x => exact shows_insert hs1 (by simp [namedEntries]) (by simp)
        refine finish_shows hs2 hp.1.1 (avoids_sub hp.2 ?_) ?_ (avoids_keys hp.2 (by decide))
        · simp [namedEntries, enumReserved]
        · simp [namedEntries]

/-- **C16, fixed.** -/
theorem C16_fixed_output (tokens : List Token) (ast : FileAst) (r : ReadResult)
    (h : readFile tokens ast = .ok r) (n : String) (ns d : Option String) (sz : Nat)
    (al : List String) (ps : Props) (hd : Declares r (.fixed n ns d sz al ps)) (lk : Lookup)
    (fuel : Nat) (encl : Option String) (K K' : Known) (o : JMap)
    (hj : schemaToJson lk fuel (.fixed n ns d sz al ps) encl K = some (.obj o, K')) :
    ∃ nsv, (nsv = none ∨ nsv = ns.map Json.str) ∧
      Shows o (("aliases", namedAliases al ns) :: ("size", some (.num (.int sz))) ::
        namedEntries "fixed" n nsv d) ps := by
  cases declares_out h hd with
  | fixed _ _ _ _ _ _ _ _ _ hp =>
    cases fuel with
    | zero => cases hj
    | succ fuel =>
      simp only [schemaToJson] at hj
      split at hj
      · rename_i bare hb
        obtain ⟨-, rfl⟩ := preamble_error hb
        simp at hj
      · rename_i obj K1 hb
        simp only [Option.some.injEq, Prod.mk.injEq, Json.obj.injEq] at hj
        obtain ⟨nsv, hns, hs⟩ := preamble_shows hb
        refine ⟨nsv, hns, ?_⟩
        rw [← hj.1]
        refine finish_shows (shows_insert hs ?_ (by simp)) hp.1.1 (avoids_sub hp.2 ?_) ?_
          (avoids_keys hp.2 (by decide))
        · simp [namedEntries]
        · simp [namedEntries, schemaReserved]
        · simp [namedEntries]

/-- The custom properties of an unnamed type. -/
def unnamedProps : Schema → Option Props
  | .array _ ps | .map _ ps | .annotated _ ps | .logical _ ps => some ps
  | _ => none

omit [CharTables] [FloatTables] [CaseTables] in
theorem typeOut_props {ns : Option String} {s : Schema} (h : TypeOut ns s) :
    ∀ t ps, Occurs t s → unnamedProps t = some ps → AnnotOk schemaReserved ps := by
  induction h with
  | prim p => intro t ps ho hp; cases ho; cases hp
  | annotated k qs hq => intro t ps ho hp; cases ho; cases hp; exact hq
  | logical lt qs _ hq => intro t ps ho hp; cases ho; cases hp; exact hq
  | ref n ns' sp _ => intro t ps ho hp; cases ho; cases hp
  | array i qs _ hq ih =>
    intro t ps ho hp
    cases ho with
    | self => cases hp; exact hq
    | items ho => exact ih t ps ho hp
  | map i qs _ hq ih =>
    intro t ps ho hp
    cases ho with
    | self => cases hp; exact hq
    | values ho => exact ih t ps ho hp
  | union us _ _ _ ih =>
    intro t ps ho hp
    cases ho with
    | self => cases hp
    | branch hm ho => exact ih _ hm t ps ho hp
  | optional u _ _ _ ih =>
    intro t ps ho hp
    cases ho with
    | self => cases hp
    | branch hm ho =>
      simp only [List.mem_cons, List.not_mem_nil, or_false] at hm
      rcases hm with rfl | rfl
      · cases ho; cases hp
      · exact ih t ps ho hp

omit [CharTables] [FloatTables] [CaseTables] in
theorem fixOptional_occurs {s t : Schema} {d : Option Json} (h : Occurs t (fixOptional s d)) :
    Occurs t s ∨ unnamedProps t = none := by
  unfold fixOptional at h
  split at h
  · split at h
    · exact Or.inl h
    · exact Or.inl h
    · cases h with
      | self => exact Or.inr rfl
      | branch hm ho =>
        refine Or.inl (.branch ?_ ho)
        simp only [List.mem_cons] at hm ⊢; grind
  · exact Or.inl h

/-- The custom properties of the unnamed types in a file. -/
theorem schema_props {tokens ast r} (h : readFile tokens ast = .ok r) {s : Schema}
    (hs : HasSchema r s) {t : Schema} (ho : Occurs t s) {ps : Props}
    (hp : unnamedProps t = some ps) : AnnotOk schemaReserved ps := by
  have hf : ∀ ns f, FieldOut ns f → Occurs t f.schema → AnnotOk schemaReserved ps := by
    intro ns f hf ho
    obtain ⟨u, hu, he⟩ := hf.type
    rw [he] at ho
    rcases fixOptional_occurs ho with ho | hc
    · exact typeOut_props hu t ps ho hp
    · rw [hc] at hp; cases hp
  cases hs with
  | declared hd =>
    cases declares_out h hd with
    | record n ns doc fs er al qs _ _ hfs _ _ =>
      cases ho with
      | self => cases hp
      | field hm ho => exact hf ns _ (hfs _ hm) ho
    | enum => cases ho; cases hp
    | fixed => cases ho; cases hp
  | main hm =>
    obtain ⟨ns, ht⟩ := (readFile_out h).schema _ hm
    exact typeOut_props ht t ps ho hp
  | param hm hq =>
    obtain ⟨ns, hmo⟩ := hasMessage_out h hm
    exact hf ns _ (hmo.request _ hq) ho
  | response hm =>
    obtain ⟨ns, hmo⟩ := hasMessage_out h hm
    exact typeOut_props hmo.response t ps ho hp
  | error hm hes hs =>
    obtain ⟨ns, hmo⟩ := hasMessage_out h hm
    obtain ⟨i, sp, rfl⟩ := hmo.errors _ hes _ hs
    exact typeOut_props (refTo_out i sp ns) t ps ho hp

/-- **C16, arrays, maps and primitives.** Wherever one of these occurs in a file, its object shows
its structural entries and its annotations. -/
theorem C16_unnamed_output (tokens : List Token) (ast : FileAst) (r : ReadResult)
    (h : readFile tokens ast = .ok r) (s : Schema) (hs : HasSchema r s) (t : Schema)
    (ho : Occurs t s) (lk : Lookup) (fuel : Nat) (encl : Option String) (K K' : Known) (j : Json)
    (hj : schemaToJson lk fuel t encl K = some (j, K')) :
    (∀ i ps, t = .array i ps → ∃ o items, j = .obj o ∧
      Shows o [("type", some (.str "array")), ("items", some items)] ps) ∧
    (∀ i ps, t = .map i ps → ∃ o values, j = .obj o ∧
      Shows o [("type", some (.str "map")), ("values", some values)] ps) ∧
    (∀ k ps, t = .annotated k ps → ∃ o, j = .obj o ∧
      Shows o [("type", some (.str k.asStr))] ps) := by
  have hs2 : ∀ (a b : String) (x y : Json), a ≠ b →
      (∀ kv ∈ [(a, some x), (b, some y)],
        (JMap.insert b y (JMap.insert a x [])).get? kv.1 = kv.2) ∧
      ∀ k, k ∉ [(a, some x), (b, some y)].map Prod.fst →
        (JMap.insert b y (JMap.insert a x [])).get? k = none := by
    intro a b x y hab
    refine ⟨fun kv hk => ?_, fun k hk => ?_⟩
    · simp only [List.mem_cons, List.not_mem_nil, or_false] at hk
      rcases hk with rfl | rfl <;> simp [JMap.get?_insert, hab]
    · simp only [List.map_cons, List.map_nil, List.mem_cons, List.not_mem_nil, or_false,
        not_or] at hk
      simp [JMap.get?_insert, JMap.get?, hk]
  cases fuel with
  | zero => cases hj
  | succ fuel =>
    refine ⟨?_, ?_, ?_⟩
    · rintro i ps rfl
      have hp := schema_props h hs ho (ps := ps) rfl
      simp only [schemaToJson] at hj
      split at hj
      · cases hj
      · rename_i it K1 hi
        simp only [Option.some.injEq, Prod.mk.injEq] at hj
        obtain ⟨h1, h2⟩ := hs2 "type" "items" (.str "array") it (by decide)
        exact ⟨_, it, hj.1.symm, shows_insertAll h1 h2 hp.1.1
          (avoids_sub hp.2 (by simp [schemaReserved]))⟩
    · rintro i ps rfl
      have hp := schema_props h hs ho (ps := ps) rfl
      simp only [schemaToJson] at hj
      split at hj
      · cases hj
      · rename_i it K1 hi
        simp only [Option.some.injEq, Prod.mk.injEq] at hj
        obtain ⟨h1, h2⟩ := hs2 "type" "values" (.str "map") it (by decide)
        exact ⟨_, it, hj.1.symm, shows_insertAll h1 h2 hp.1.1
          (avoids_sub hp.2 (by simp [schemaReserved]))⟩
    · rintro k ps rfl
      have hp := schema_props h hs ho (ps := ps) rfl
      simp only [schemaToJson, Option.some.injEq, Prod.mk.injEq] at hj
      refine ⟨_, hj.1.symm, shows_insertAll ?_ ?_ hp.1.1 (avoids_sub hp.2 (by simp [schemaReserved]))⟩
      · intro kv hk
        simp only [List.mem_cons, List.not_mem_nil, or_false] at hk
        subst hk; simp [JMap.get?_insert]
      · intro x hx
        simp only [List.map_cons, List.map_nil, List.mem_cons, List.not_mem_nil, or_false] at hx
        simp [JMap.get?_insert, JMap.get?, hx]

/-- The structural entries of a logical type. -/
def logicalEntries (lt : LogicalType) : List (String × Option Json) :=
  [("type", some (.str lt.base.asStr)), ("logicalType", some (.str lt.name))] ++
  match lt with
  | .decimal p s => [("precision", some (.num (.int p))), ("scale", some (.num (.int s)))]
  | _ => []

omit [CharTables] [FloatTables] [CaseTables] in
theorem logicalObj_shows {lt : LogicalType} {ps : Props} (hw : ps.Wf)
    (ha : ps.Avoids ((logicalEntries lt).map Prod.fst)) :
    Shows (logicalObj lt ps) (logicalEntries lt) ps := by
  unfold logicalObj
  refine shows_insertAll ?_ ?_ hw ha
  · intro kv hk
    cases lt <;> simp only [logicalEntries, List.cons_append, List.nil_append, List.mem_cons,
      List.not_mem_nil, or_false] at hk <;> rcases hk with rfl | rfl | rfl | rfl <;>
      simp [JMap.get?_insert]
  · intro k hk
    cases lt <;> simp only [logicalEntries, List.cons_append, List.nil_append, List.map_cons,
      List.map_nil, List.mem_cons, List.not_mem_nil, or_false, not_or] at hk <;>
      simp [JMap.get?_insert, JMap.get?, hk]

/-- **C16, logical types (partial).** A logical type's object keeps the base type; it keeps the
other structural entries and shows the annotations provided no annotation is called
`logicalType` (or, for decimals, `precision` or `scale`): those names are not reserved, see
`C16_logical_type_overridden`. -/
theorem C16_logical_output_partial (tokens : List Token) (ast : FileAst) (r : ReadResult)
    (h : readFile tokens ast = .ok r) (s : Schema) (hs : HasSchema r s) (lt : LogicalType)
    (ps : Props) (ho : Occurs (.logical lt ps) s) (lk : Lookup) (fuel : Nat)
    (encl : Option String) (K K' : Known) (j : Json)
    (hj : schemaToJson lk fuel (.logical lt ps) encl K = some (j, K')) :
    ∃ o, j = .obj o ∧ JMap.get? o "type" = some (Json.str lt.base.asStr) ∧
      (ps.Avoids ((logicalEntries lt).map Prod.fst) → Shows o (logicalEntries lt) ps) := by
  have hp := schema_props h hs ho (ps := ps) rfl
  cases fuel with
  | zero => cases hj
  | succ fuel =>
    simp only [schemaToJson, Option.some.injEq, Prod.mk.injEq] at hj
    refine ⟨_, hj.1.symm, ?_, logicalObj_shows hp.1.1⟩
    unfold logicalObj
    rw [get?_insertAll_avoid hp.2 (by decide)]
    cases lt <;> simp [JMap.get?_insert]

/-- The structural entries of a message. -/
def messageEntries (m : Message) (request : List Json) (response : Json)
    (errors : Option (List Json)) : List (String × Option Json) :=
  [("doc", m.doc.map .str), ("request", some (.arr request)), ("response", some response),
   ("errors", errors.map .arr), ("one-way", if m.oneWay then some (.bool true) else none)]

omit [CharTables] [FloatTables] [CaseTables] in
theorem messageObj_shows {m : Message} (hp : AnnotOk messageReserved m.props) (req : List Json)
    (resp : Json) (errs : Option (List Json)) :
    Shows (messageObj m req resp errs) (messageEntries m req resp errs) m.props := by
  obtain ⟨doc, ps, rq, rs, es, ow⟩ := m
  have hd : Shows ((addDoc doc []).insertAll ps) [("doc", doc.map .str)] ps := by
    refine shows_insertAll ?_ ?_ hp.1.1 (avoids_sub hp.2 (by simp [messageReserved]))
    · intro kv hk
      simp only [List.mem_cons, List.not_mem_nil, or_false] at hk
      subst hk
      cases doc <;> simp [addDoc, JMap.get?_insert, JMap.get?]
    · intro k hk
      simp only [List.map_cons, List.map_nil, List.mem_cons, List.not_mem_nil, or_false] at hk
      cases doc <;> simp [addDoc, JMap.get?_insert, JMap.get?, hk]
  have h1 := shows_insert (k := "request") (v := .arr req) hd (by simp)
    (avoids_keys hp.2 (by decide))
  have h2 := shows_insert (k := "response") (v := resp) h1 (by simp)
    (avoids_keys hp.2 (by decide))
  have h3 : Shows (match errs with
      | some es => JMap.insert "errors" (.arr es)
          (JMap.insert "response" resp (JMap.insert "request" (.arr req)
            ((addDoc doc []).insertAll ps)))
      | none => JMap.insert "response" resp (JMap.insert "request" (.arr req)
            ((addDoc doc []).insertAll ps)))
      (("errors", errs.map .arr) :: ("response", some resp) :: ("request", some (.arr req)) ::
        [("doc", doc.map .str)]) ps := by
    cases errs with
    | none => exact shows_none h2 (by simp) (avoids_keys hp.2 (by decide))
    | some es => exact shows_insert h2 (by simp) (avoids_keys hp.2 (by decide))
  have h4 : Shows (messageObj ⟨doc, ps, rq, rs, es, ow⟩ req resp errs)
      (("one-way", if ow then some (.bool true) else none) :: ("errors", errs.map .arr) ::
        ("response", some resp) :: ("request", some (.arr req)) :: [("doc", doc.map .str)]) ps := by
    cases ow with
    | false => exact shows_none h3 (by simp) (avoids_keys hp.2 (by decide))
    | true => exact shows_insert h3 (by simp) (avoids_keys hp.2 (by decide))
  refine ⟨fun kv hk => h4.structural kv ?_, h4.custom, fun k hk hkp => h4.nothingElse k ?_ hkp⟩
  · simp only [messageEntries, List.mem_cons, List.not_mem_nil, or_false] at hk ⊢
    grind
  · simp only [messageEntries, List.map_cons, List.map_nil, List.mem_cons, List.not_mem_nil,
      or_false, not_or] at hk ⊢
    grind

/-- **C16, messages.** -/
theorem C16_message_output (tokens : List Token) (ast : FileAst) (r : ReadResult)
    (h : readFile tokens ast = .ok r) (n : String) (m : Message) (hm : HasMessage r n m)
    (lk : Lookup) (fuel : Nat) (encl : Option String) (K K' : Known) (j : Json)
    (hj : messageToJson lk fuel encl m K = some (j, K')) :
    ∃ o req resp errs, j = .obj o ∧ FieldsShown m.request req ∧
      errs.isSome = m.errors.isSome ∧ Shows o (messageEntries m req resp errs) m.props := by
  obtain ⟨ns, ho⟩ := hasMessage_out h hm
  simp only [messageToJson] at hj
  split at hj
  · cases hj
  · rename_i req K1 hq
    have hf := fields_shown hq fun f hf => (ho.request f hf).props
    split at hj
    · cases hj
    · rename_i resp K2 hr
      split at hj
      · rename_i he
        simp only [Option.some.injEq, Prod.mk.injEq] at hj
        exact ⟨_, req, resp, none, hj.1.symm, hf, by rw [he]; rfl, messageObj_shows ho.props ..⟩
      · rename_i es he
        split at hj
        · cases hj
        · rename_i ej K3 hes
          simp only [Option.some.injEq, Prod.mk.injEq] at hj
          exact ⟨_, req, resp, some ej, hj.1.symm, hf, by rw [he]; rfl,
            messageObj_shows ho.props ..⟩

/-- **C16, protocols.** The protocol read from a file, completed with any types and messages (those
of imports, say), is written with its structural entries intact and its annotations under their
own names. -/
theorem C16_protocol_output (tokens : List Token) (ast : FileAst) (r : ReadResult)
    (h : readFile tokens ast = .ok r) (p : Protocol) (hp : r.file = .protocol p)
    (types : List Schema) (messages : List (String × Message)) (fuel : Nat) (j : Json)
    (hj : protocolToJson fuel { p with types := types, messages := messages } = some j) :
    ∃ (o : JMap) (ts : List Json) (ms : List (String × Json)), j = .obj o ∧
      Shows o [("messages", some (.obj ms)), ("types", some (.arr ts)),
      ("protocol", some (.str p.name)),
      ("namespace", if nsStr p.ns = "" then none else p.ns.map .str),
      ("doc", p.doc.map .str)] p.props := by
  obtain ⟨-, -, -, hps, -⟩ := (readFile_out h).protocol p hp
  obtain ⟨nm, ns, doc, ps, ty0, ms0⟩ := p
  simp only [protocolToJson] at hj
  split at hj
  · cases hj
  · rename_i ts K1 ht
    split at hj
    · cases hj
    · rename_i ms K2 hm
      simp only [Option.some.injEq] at hj
      refine ⟨_, ts.filter (fun v => !v.isStr), JMap.insertAll [] ms, hj.symm, ?_⟩
      unfold protocolObj
      refine shows_insert (shows_insert ?_ (by simp) (avoids_keys hps.2 (by decide))) (by simp)
        (avoids_keys hps.2 (by decide))
      refine shows_insertAll ?_ ?_ hps.1.1 (avoids_sub hps.2 (by simp [protocolReserved]))
      · intro kv hk
        simp only [List.mem_cons, List.not_mem_nil, or_false] at hk
        rcases hk with rfl | rfl | rfl <;> cases doc <;> cases ns <;> simp [nsStr] <;>
          (try split) <;> simp_all [JMap.get?_insert, JMap.get?]
      · intro k hk
        simp only [List.map_cons, List.map_nil, List.mem_cons, List.not_mem_nil, or_false,
          not_or] at hk
        cases doc <;> cases ns <;> simp <;> (try split) <;> simp [JMap.get?_insert, JMap.get?, hk]

end

/-! ### Examples -/

attribute [local instance] asciiTables exFloats exCases

/-- `@version(3) protocol P {
  @owner("me") @aliases(["Old"]) record R { @tag(true) array<int> @unit("s") a = []; }
  @owner("you") enum E { A }
  fixed F(4);
  @slow(true) void ping(@hex(true) string s);
}` -/
def exAnnotated : FileAst := .protocol
  { start := 0, annots := [⟨"version", .int "3" none, none⟩], ident := "P", identSpan := none, body := [
    .named (.record ⟨0, [⟨"owner", .str "\"me\"", none⟩, ⟨"aliases", .arr [.str "\"Old\""], none⟩], false, "R",
      [⟨0, .mk [⟨"tag", .true, none⟩] (.array (ty (.prim (.prim .int) false none))) none,
        [⟨0, [⟨"unit", .str "\"s\"", none⟩], "a", some (.arr []), none, none, none⟩]⟩], none⟩) none,
    .named (.enum ⟨0, [⟨"owner", .str "\"you\"", none⟩], "E", [("A", none)], none, none⟩) none,
    .named (.fixed ⟨0, [], "F", "4", none, none⟩) none,
    .message ⟨0, [⟨"slow", .true, none⟩], none, "ping",
      [⟨0, .mk [⟨"hex", .true, none⟩] (.prim (.prim .string) false none) none, var "s" none, none⟩], false, [],
      none⟩] }

/-- The record of `exAnnotated`. -/
def exAnnotatedR : Schema := .record "R" none none
  [.mk "a" (.array (.prim .int) [("tag", .bool true)]) none (some (.arr [])) none []
    [("unit", .str "s")]] false ["Old"] [("owner", .str "me")]

/-- The message of `exAnnotated`. -/
def exAnnotatedPing : Message where
  doc := none
  props := [("slow", .bool true)]
  request := [.mk "s" (.annotated .string [("hex", .bool true)]) none none none [] []]
  response := .prim .null
  errors := none
  oneWay := false

/-- What `exAnnotated` is read as. -/
def exAnnotatedResult : ReadResult where
  file := .protocol ⟨"P", none, none, [("version", .num (.int 3))], [],
    [("ping", exAnnotatedPing)]⟩
  decls := [.type exAnnotatedR none [],
    .type (.enum "E" none none ["A"] none [] [("owner", .str "you")]) none [],
    .type (.fixed "F" none none 4 [] []) none []]
  orphans := []
  warnings := []

/-- The hypotheses of C16 are met by every kind of construct. -/
theorem exAnnotated_reads : readFile [] exAnnotated = .ok exAnnotatedResult := by rfl

example : Declares exAnnotatedResult exAnnotatedR ∧
    schemaToJson [] 3 exAnnotatedR none [] = some (.obj [("aliases", .arr [.str "Old"]),
      ("fields", .arr [.obj [("default", .arr []), ("name", .str "a"),
        ("type", .obj [("items", .str "int"), ("tag", .bool true), ("type", .str "array")]),
        ("unit", .str "s")]]),
      ("name", .str "R"), ("owner", .str "me"), ("type", .str "record")], ["R"]) :=
  ⟨⟨List.mem_cons_self ..⟩, rfl⟩

example : Declares exAnnotatedResult (.enum "E" none none ["A"] none [] [("owner", .str "you")]) ∧
    Declares exAnnotatedResult (.fixed "F" none none 4 [] []) ∧
    HasMessage exAnnotatedResult "ping" exAnnotatedPing ∧
    HasSchema exAnnotatedResult exAnnotatedR ∧
    Occurs (.array (.prim .int) [("tag", .bool true)]) exAnnotatedR ∧
    messageToJson [] 1 none exAnnotatedPing [] = some (.obj [
      ("request", .arr [.obj [("name", .str "s"),
        ("type", .obj [("hex", .bool true), ("type", .str "string")])]]),
      ("response", .str "null"), ("slow", .bool true)], []) :=
  ⟨⟨List.mem_cons_of_mem _ (List.mem_cons_self ..)⟩,
    ⟨List.mem_cons_of_mem _ (List.mem_cons_of_mem _ (List.mem_cons_self ..))⟩,
    .message rfl (List.mem_cons_self ..), .declared ⟨List.mem_cons_self ..⟩,
    .field (List.mem_cons_self ..) .self, rfl⟩

/-- Reserved names are rejected in each context; `@name` on a protocol is not reserved and does
not clash. -/
example : (∃ e, walkAnnots namedCtx {} [⟨"x", .null, none⟩, ⟨"fields", .null, none⟩] ⟨[], []⟩ = .error e) ∧
    (∃ e, walkAnnots messageCtx {} [⟨"one-way", .true, none⟩] ⟨[], []⟩ = .error e) ∧
    ∃ p, walkAnnots protocolCtx {} [⟨"name", .int "1" none, none⟩] ⟨[], []⟩ = .ok (p, ⟨[], []⟩) ∧
      p.props = [("name", .num (.int 1))] :=
  ⟨⟨_, rfl⟩, ⟨_, rfl⟩, ⟨_, rfl, rfl⟩⟩

end Avdl.Props
