import Verif.Spec.RoundTrip
import Verif.Spec.Hoist
import Verif.Lemmas.Hoist
import Verif.Lemmas.ProtocolEvents
import Verif.Props.Names
/-!
# Export followed by import: lemmas
-/

namespace Avdl

open Spec

/-! ### The importer's loops -/

theorem schemaEntry_eq (d : Option String) (key : String) (m : List (String × Json)) :
    schemaEntry d key m = (JMap.get? m key).map (jsonToSchema d) := by
  induction m with
  | nil => simp [schemaEntry, JMap.get?]
  | cons kv m ih =>
    obtain ⟨k, v⟩ := kv
    simp only [schemaEntry, JMap.get?]
    split
    · rfl
    · exact ih

theorem fieldsEntry_some {d : Option String} {m : List (String × Json)} {v : Json}
    (h : JMap.get? m "fields" = some v) : fieldsEntry d m = fieldsOfJson d v := by
  induction m with
  | nil => simp [JMap.get?] at h
  | cons kv m ih =>
    obtain ⟨k, w⟩ := kv
    simp only [fieldsEntry, JMap.get?] at h ⊢
    split at h
    · cases h; simp [*]
    · rw [if_neg ‹_›]; exact ih h

/-- A loop stopping at the first error. -/
def importAll {γ : Type} (imp : Json → Except ImportErr γ) : List Json → Except ImportErr (List γ)
  | [] => .ok []
  | j :: js =>
      match imp j with
      | .error e => .error (e.within (.entry 0))
      | .ok c =>
        match importAll imp js with
        | .error e => .error e.later
        | .ok cs => .ok (c :: cs)

theorem jsonToSchemaList_eq (d : Option String) (l : List Json) :
    jsonToSchemaList d l = importAll (jsonToSchema d) l := by
  induction l with
  | nil => simp only [jsonToSchemaList, importAll]
  | cons j l ih => 
    simp only [jsonToSchemaList, importAll, ih]
    cases jsonToSchema d j <;> cases importAll (jsonToSchema d) l <;> rfl

theorem jsonToFieldList_eq (d : Option String) (l : List Json) :
    jsonToFieldList d l = importAll (jsonToField d) l := by
  induction l with
  | nil => simp only [jsonToFieldList, importAll]
  | cons j l ih => 
    simp only [jsonToFieldList, importAll, ih]
    cases jsonToField d j <;> cases importAll (jsonToField d) l <;> rfl

/-! ### Annotations -/

theorem collectExtra_insert_known {known : List String} {k : String} (h : k ∈ known) (v : Json)
    (m : JMap) : collectExtra (JMap.insert k v m) known = collectExtra m known := by
  have hk : known.contains k = true := by simpa using h
  induction m with
  | nil => simp [JMap.insert, collectExtra, h]
  | cons kv m ih =>
    obtain ⟨k', v'⟩ := kv
    simp only [JMap.insert]
    split
    · rename_i he; subst he; simp [collectExtra, h]
    · split
      · simp [collectExtra, h]
      · simp only [collectExtra, List.filter_cons] at ih ⊢
        rw [ih]

theorem collectExtra_insert_new {known : List String} {k : String} (h : k ∉ known) (v : Json)
    {m : JMap} (hm : ∀ x ∈ m, x.1 ≠ k) :
    (collectExtra (JMap.insert k v m) known).Perm ((k, v) :: collectExtra m known) := by
  induction m with
  | nil => simp [JMap.insert, collectExtra, h]
  | cons kv m ih =>
    obtain ⟨k', v'⟩ := kv
    have hne : k ≠ k' := fun e => hm (k', v') (by simp) e.symm
    have ih' := ih (fun x hx => hm x (by simp [hx]))
    simp only [JMap.insert, if_neg hne]
    split
    · simp [collectExtra, h]
    · simp only [collectExtra, List.filter_cons] at ih' ⊢
      split
      · exact (ih'.cons _).trans (List.Perm.swap ..)
      · exact ih'

theorem collectExtra_insertAll_aux {known : List String} (ps : Props) :
    ∀ {m : JMap}, ps.Wf → ps.Avoids known → (∀ x ∈ m, ∀ kv ∈ ps, x.1 ≠ kv.1) →
      (collectExtra (m.insertAll ps) known).Perm (ps ++ collectExtra m known) := by
  induction ps with
  | nil => intro m _ _ _; simp [JMap.insertAll]
  | cons kv ps ih =>
    obtain ⟨k, v⟩ := kv
    intro m hwf hav hdis
    simp only [Props.Wf, List.map_cons, List.nodup_cons] at hwf
    have h1 := @ih (JMap.insert k v m) hwf.2 (fun x hx => hav x (by simp [hx])) (by
      intro x hx y hy
      rcases JMap.mem_insert hx with rfl | hx
      · intro e
        exact hwf.1 (List.mem_map.2 ⟨y, hy, e.symm⟩)
      · exact hdis x hx y (by simp [hy]))
    have h2 := collectExtra_insert_new (hav (k, v) (by simp)) v (m := m)
      (fun x hx => hdis x hx (k, v) (by simp))
    have h3 : (ps ++ collectExtra (JMap.insert k v m) known).Perm
        ((k, v) :: ps ++ collectExtra m known) := by
      refine (List.Perm.append_left ps h2).trans ?_
      simp
    exact h1.trans h3

/-- All keys of the object are among these. -/
def KeysIn (known : List String) (m : JMap) : Prop := ∀ x ∈ m, x.1 ∈ known

theorem keysIn_nil (known : List String) : KeysIn known [] := by intro x hx; cases hx

theorem KeysIn.insert {known : List String} {m : JMap} (h : KeysIn known m) {k : String}
    (hk : k ∈ known) (v : Json) : KeysIn known (JMap.insert k v m) := by
  intro x hx
  rcases JMap.mem_insert hx with rfl | hx
  · exact hk
  · exact h x hx

theorem KeysIn.mono {known known' : List String} {m : JMap} (h : KeysIn known m)
    (hs : ∀ k ∈ known, k ∈ known') : KeysIn known' m := fun x hx => hs _ (h x hx)

theorem collectExtra_insertAll {known : List String} {m : JMap} {ps : Props}
    (hm : KeysIn known m) (hwf : ps.Wf) (hav : ps.Avoids known) :
    SameMap ps (collectExtra (m.insertAll ps) known) := by
  refine ⟨?_, hwf⟩
  have h := collectExtra_insertAll_aux (known := known) ps (m := m) hwf hav (by
    intro x hx kv hkv e
    exact hav kv hkv (e ▸ hm x hx))
  have h0 : collectExtra m known = [] := by
    unfold collectExtra
    rw [List.filter_eq_nil_iff]
    intro x hx
    simpa using hm x hx
  rw [h0, List.append_nil] at h
  exact h.symm

theorem SameMap.nil_right {α : Type} {p : List (String × α)} (h : SameMap p []) : p = [] :=
  List.perm_nil.1 h.1

/-! ### Names -/

theorem ofStr?_none {s : String} (h : s ∉ primitiveTypeNames) : Prim.ofStr? s = none := by
  simp only [primitiveTypeNames, List.mem_cons, List.not_mem_nil, or_false, not_or] at h
  obtain ⟨h1, h2, h3, h4, h5, h6, h7, h8⟩ := h
  simp [Prim.ofStr?, h1, h2, h3, h4, h5, h6, h7, h8]

theorem ofStr?_asStr (p : Prim) : Prim.ofStr? p.asStr = some p := by cases p <;> rfl

theorem stringToSchema_bare {n : String} {d : Option String} (hn : DotFree n)
    (hp : n ∉ primitiveTypeNames) : stringToSchema n d = .ref n d [] none := by
  unfold stringToSchema
  rw [ofStr?_none hp, splitFullName_dotfree hn]

/-- A written reference is read as a reference to the same name. -/
theorem stringToSchema_ref {n : String} {ns encl d : Option String} (h : RefOk (nsStr encl) n ns)
    (hd : nsStr d = nsStr encl) :
    ∃ ns', stringToSchema (schemaRefName n ns encl) d = .ref n ns' [] none ∧
      nsStr ns' = nsStr ns := by
  obtain ⟨hdf, hp, he⟩ := h
  have full : ∃ ns', stringToSchema (makeFullName n ns) d = .ref n ns' [] none ∧
      nsStr ns' = nsStr ns := by
    by_cases h0 : nsStr ns = ""
    · rw [makeFullName_nsStr, h0, makeFullName_empty]
      exact ⟨d, stringToSchema_bare hdf (hp h0), by rw [hd, he h0]⟩
    · rw [makeFullName_nsStr]
      refine ⟨some (nsStr ns), ?_, rfl⟩
      unfold stringToSchema
      rw [ofStr?_none (full_not_prim h0), splitFullName_make hdf h0]
  unfold schemaRefName
  split
  · rename_i hne
    split
    · exact full
    · rename_i hs
      exact ⟨d, stringToSchema_bare hdf (not_schemaTypeName_not_prim (by simpa using hs)),
        by rw [hd, hne]⟩
  · exact full

theorem aliasOk_split {a : String} (h : AliasOk a) : (splitFullName a).2 ≠ some "" := by
  intro he
  unfold splitFullName at he
  cases hr : rsplitDot a.toList with
  | none => rw [hr] at he; simp at he
  | some r =>
    obtain ⟨x, y⟩ := r
    rw [hr] at he
    simp only [Option.some.injEq] at he
    have hx : x = [] := by
      have := congrArg String.toList he
      simpa using this
    subst hx
    have := rsplitDot_some hr
    refine h (String.ofList y) (by simpa using this.2) ?_
    apply String.ext
    simpa [String.toList_append, dot_toList] using this.1

theorem sameAlias_export (ns : Option String) {a : String} (h : AliasOk a) :
    SameAlias ns a (aliasRefName a ns) := by
  have hd := splitFullName_fst_dotfree a
  have hc := Props.C01_compose_split a (aliasOk_split h)
  have hne := aliasOk_split h
  unfold aliasRefName
  cases hs : splitFullName a with
  | mk simple o =>
    rw [hs] at hd hc hne
    cases o with
    | none => exact .inl hc
    | some q =>
      simp only at hc hd hne ⊢
      have hq : q ≠ "" := fun h' => hne (by rw [h'])
      unfold schemaRefName
      split
      · rename_i hns
        split
        · exact .inl hc
        · rename_i ht
          refine .inr ⟨?_, ?_, hd, ?_, ?_⟩
          · rw [← hns]; exact hq
          · rw [← hns]
            simp only [makeFullName, hq, if_false] at hc
            exact hc.symm
          · intro hm; exact ht (by simp [isSchemaTypeName, hm])
          · intro hm; exact ht (by simp [isSchemaTypeName, hm])
      · exact .inl hc

theorem sameAliases_export (ns : Option String) {al : List String}
    (h : ∀ a ∈ al, AliasOk a) : SameAliases ns al (al.map fun a => aliasRefName a ns) := by
  induction al with
  | nil => exact .nil
  | cons a al ih =>
    exact .cons (sameAlias_export ns (h a (by simp))) (ih fun a ha => h a (by simp [ha]))

theorem extractStringArray_strs (l : List String) :
    extractStringArray (some (.arr (l.map Json.str))) = l := by
  simp only [extractStringArray, List.filterMap_map]
  induction l with
  | nil => rfl
  | cons a l ih => simp [Json.asStr, ih]

/-- The name entries written for a named type are read as the same name. -/
theorem namedTypeName_export {obj : JMap} {n : String} {ns encl d : Option String} (hdf : DotFree n)
    (hn : obj.get? "name" = some (.str n)) (hns : obj.get? "namespace" = nsEntry ns encl)
    (h0 : ns = none → nsStr encl = "") (hd : nsStr d = nsStr encl) :
    ∃ ns', namedTypeName obj d = some (n, ns') ∧ nsStr ns' = nsStr ns := by
  unfold namedTypeName getStr
  rw [hn, hns]
  simp only [Option.bind_some, Json.asStr, splitFullName_dotfree hdf, Option.some.injEq,
    Prod.mk.injEq, true_and]
  refine ⟨_, rfl, ?_⟩
  cases ns with
  | none => exact hd.trans (h0 rfl)
  | some x =>
    simp only [nsEntry]
    split
    · simp [Json.asStr, nsStr]
    · rename_i hne
      simp only [Option.bind_none, Option.none_or]
      rw [hd]
      by_cases hx : some x = encl
      · rw [hx]
      · have : x = "" ∧ encl = none := by
          refine Classical.byContradiction fun hc => hne ⟨hx, hc⟩
        rw [this.1, this.2]; rfl

/-! ### Named type objects -/

theorem preamble_keys {t n : String} {ns doc encl : Option String} {K K1 : Known} {obj : JMap}
    (h : namedTypePreamble t n ns doc K encl = .ok (obj, K1)) :
    KeysIn ["type", "name", "namespace", "doc"] obj := by
  have base : KeysIn ["type", "name", "namespace", "doc"]
      (JMap.insert "name" (.str n) (JMap.insert "type" (.str t) [])) :=
    ((keysIn_nil _).insert (by simp) _).insert (by simp) _
  unfold namedTypePreamble at h
  by_cases hk : K.contains (makeFullName n ns) = true
  · simp only [if_pos hk] at h; cases h
  · simp only [if_neg hk, Except.ok.injEq, Prod.mk.injEq] at h
    obtain ⟨rfl, -⟩ := h
    cases doc <;> cases ns <;> simp only <;> (try split) <;>
      repeat (first | exact base | refine KeysIn.insert ?_ (by simp) _)

theorem finish_extra {obj : JMap} {ps : Props} {al : List String} {ns : Option String}
    {known : List String} (hk : KeysIn known obj) (hwf : ps.Wf) (hav : ps.Avoids known)
    (hal : "aliases" ∈ known) :
    SameMap ps (collectExtra (finishNamedType obj ps al ns) known) := by
  unfold finishNamedType
  simp only
  split
  · exact collectExtra_insertAll hk hwf hav
  · rw [collectExtra_insert_known hal]
    exact collectExtra_insertAll hk hwf hav

theorem finish_aliases {obj : JMap} {ps : Props} {al : List String} {ns : Option String}
    {known : List String} (hk : obj.get? "aliases" = none) (hav : ps.Avoids known)
    (hal : "aliases" ∈ known) :
    extractStringArray ((finishNamedType obj ps al ns).get? "aliases") =
      al.map fun a => aliasRefName a ns := by
  unfold finishNamedType
  simp only
  split
  · rename_i h
    rw [get?_insertAll_avoid hav hal, hk, h]
    rfl
  · rw [JMap.get?_insert_self]
    have : (al.map fun a => Json.str (aliasRefName a ns)) =
        (al.map fun a => aliasRefName a ns).map Json.str := by simp
    rw [this, extractStringArray_strs]

theorem get?_none_of_keysIn {known : List String} {m : JMap} (h : KeysIn known m) {k : String}
    (hk : k ∉ known) : m.get? k = none :=
  JMap.get?_none_of_forall fun x hx e => hk (e ▸ h x hx)

/-! ### Definitions brought along -/

/-- The definitions `defs` bring the known names from `K` to `K'`, and each is the same as the
table's definition of its name. -/
structure Brought (lk : Lookup) (defs : List Schema) (K K' : Known) : Prop where
  new : ∃ new, K' = new ++ K ∧ new.Perm (defs.filterMap Schema.fullName?)
  same : ∀ t' ∈ defs, ∃ full t, t'.fullName? = some full ∧ lk.get? full = some t ∧
    SameDef t (outlineDef t')

theorem Brought.nil (lk : Lookup) (K : Known) : Brought lk [] K K :=
  ⟨⟨[], rfl, by simp⟩, by intro t h; cases h⟩

theorem Brought.append {lk : Lookup} {d1 d2 : List Schema} {K K1 K2 : Known}
    (h1 : Brought lk d1 K K1) (h2 : Brought lk d2 K1 K2) : Brought lk (d1 ++ d2) K K2 := by
  obtain ⟨n1, rfl, p1⟩ := h1.new
  obtain ⟨n2, rfl, p2⟩ := h2.new
  refine ⟨⟨n2 ++ n1, by simp, ?_⟩, ?_⟩
  · rw [List.filterMap_append]
    exact (p2.append p1).trans List.perm_append_comm
  · intro t ht
    rcases List.mem_append.1 ht with ht | ht
    · exact h1.same t ht
    · exact h2.same t ht

theorem Brought.snoc {lk : Lookup} {d : List Schema} {K K' : Known} {full : String}
    {t' t : Schema} (h : Brought lk d (full :: K) K') (hf : t'.fullName? = some full)
    (ht : lk.get? full = some t) (hs : SameDef t (outlineDef t')) :
    Brought lk (d ++ [t']) K K' := by
  obtain ⟨n1, rfl, p1⟩ := h.new
  refine ⟨⟨n1 ++ [full], by simp, ?_⟩, ?_⟩
  · rw [List.filterMap_append]
    refine p1.append ?_
    simp [hf]
  · intro t'' h''
    rcases List.mem_append.1 h'' with h'' | h''
    · exact h.same _ h''
    · simp only [List.mem_singleton] at h''
      subst h''
      exact ⟨full, t, hf, ht, hs⟩

theorem mapAccum_import {α γ : Type} {lk : Lookup} {f : α → Known → Option (Json × Known)}
    {imp : Json → Except ImportErr γ} {R : α → γ → Prop} {D : γ → List Schema} {l : List α}
    (H : ∀ a ∈ l, ∀ K b K', f a K = some (b, K') →
      ∃ c, imp b = .ok c ∧ R a c ∧ Brought lk (D c) K K') :
    ∀ {K K' : Known} {bs : List Json}, mapAccum f l K = some (bs, K') →
      ∃ cs, importAll imp bs = .ok cs ∧ Matching R l cs ∧ Brought lk (cs.flatMap D) K K' := by
  induction l with
  | nil =>
    intro K K' bs h
    simp only [mapAccum, Option.some.injEq, Prod.mk.injEq] at h
    obtain ⟨rfl, rfl⟩ := h
    exact ⟨[], rfl, .nil, .nil ..⟩
  | cons a l ih =>
    intro K K' bs h
    simp only [mapAccum] at h
    cases ha : f a K with
    | none => rw [ha] at h; cases h
    | some r =>
      obtain ⟨b, K1⟩ := r
      rw [ha] at h
      simp only at h
      cases hl : mapAccum f l K1 with
      | none => rw [hl] at h; cases h
      | some r =>
        obtain ⟨bs', K2⟩ := r
        rw [hl] at h
        simp only [Option.some.injEq, Prod.mk.injEq] at h
        obtain ⟨rfl, rfl⟩ := h
        obtain ⟨c, hc, hR, hB⟩ := H a (by simp) _ _ _ ha
        obtain ⟨cs, hcs, hM, hBs⟩ := ih (fun x hx => H x (by simp [hx])) hl
        refine ⟨c :: cs, ?_, .cons hR hM, ?_⟩
        · simp only [importAll, hc, hcs]
        · simpa using hB.append hBs

/-! ### Fields -/

theorem getStr_of {m : JMap} {k : String} {o : Option String} (h : m.get? k = o.map .str) :
    getStr m k = o := by
  unfold getStr
  rw [h]
  cases o <;> rfl

theorem orderEntry_get? {o : Option FieldOrder} {m : JMap} {k : String} (h : k ≠ "order") :
    (orderEntry o m).get? k = m.get? k := by
  unfold orderEntry
  split <;> first | rfl | exact JMap.get?_insert_ne _ _ h

theorem optInsert_get? {β : Type} (o : Option β) (f : β → Json) (key : String) (m : JMap)
    (k : String) :
    JMap.get? (match o with
      | some v => JMap.insert key (f v) m
      | none => m) k = if k = key then (o.map f).or (m.get? k) else m.get? k := by
  cases o with
  | none => simp
  | some v => simp [JMap.get?_insert]

/-- The object written for a field before its annotations are added. -/
def fieldBase (f : Field) (j : Json) : JMap :=
  let obj := JMap.insert "type" j (JMap.insert "name" (.str f.name) [])
  let obj := match f.doc with
    | some d => JMap.insert "doc" (.str d) obj
    | none => obj
  let obj := match f.default with
    | some v => JMap.insert "default" v obj
    | none => obj
  let obj := orderEntry f.order obj
  if f.aliases = [] then obj
    else JMap.insert "aliases" (.arr (f.aliases.map .str)) obj

theorem fieldObj_base (f : Field) (j : Json) : fieldObj f j = (fieldBase f j).insertAll f.props :=
  rfl

theorem fieldBase_get? (f : Field) (j : Json) :
    (fieldBase f j).get? "name" = some (.str f.name) ∧
    (fieldBase f j).get? "doc" = f.doc.map .str ∧
    (fieldBase f j).get? "default" = f.default ∧
    extractStringArray ((fieldBase f j).get? "aliases") = f.aliases ∧
    SameOrder f.order (parseOrder (fieldBase f j)) := by
  obtain ⟨n, s, d, df, o, al, ps⟩ := f
  have hal := extractStringArray_strs al
  refine ⟨?_, ?_, ?_, ?_, ?_⟩ <;> simp only [parseOrder, getStr, fieldBase, Field.name, Field.doc,
    Field.default, Field.order, Field.aliases] <;>
    rcases o with _ | o | o | o <;> by_cases h0 : al = [] <;> cases d <;> cases df <;>
    simp [orderEntry, JMap.get?_insert, JMap.get?, extractStringArray, Json.asStr, SameOrder, h0]
      at hal ⊢ <;> exact hal

theorem keysIn_fieldBase (f : Field) (j : Json) : KeysIn fieldKeys (fieldBase f j) := by
  obtain ⟨n, s, d, df, o, al, ps⟩ := f
  simp only [fieldBase, Field.name, Field.doc, Field.default, Field.order, Field.aliases]
  rcases o with _ | o | o | o <;> by_cases h0 : al = [] <;> cases d <;> cases df <;>
    simp only [orderEntry, h0, if_true, if_false] <;>
    repeat (first | exact keysIn_nil _ | refine KeysIn.insert ?_ (by simp [fieldKeys]) _)

/-- What is found in the object written for a field. -/
theorem fieldObj_get? (f : Field) (j : Json) (h : OutField f) :
    (fieldObj f j).get? "name" = some (.str f.name) ∧
    (fieldObj f j).get? "doc" = f.doc.map .str ∧
    (fieldObj f j).get? "default" = f.default ∧
    extractStringArray ((fieldObj f j).get? "aliases") = f.aliases ∧
    SameOrder f.order (parseOrder (fieldObj f j)) := by
  have key : ∀ k ∈ ["name", "type", "doc", "default", "order", "aliases"],
      (fieldObj f j).get? k = (fieldBase f j).get? k := by
    intro k hk
    exact get?_insertAll_avoid h hk
  have ho : parseOrder (fieldObj f j) = parseOrder (fieldBase f j) := by
    unfold parseOrder getStr
    rw [key _ (by simp)]
  rw [ho, key "name" (by simp), key "doc" (by simp), key "default" (by simp),
    key "aliases" (by simp)]
  exact fieldBase_get? f j

theorem fieldObj_extra (f : Field) (j : Json) (h : OutField f) (hwf : f.props.Wf) :
    SameMap f.props (collectExtra (fieldObj f j) fieldKeys) := by
  rw [fieldObj_base]
  exact collectExtra_insertAll (keysIn_fieldBase f j) hwf h

theorem jsonToField_export {f : Field} {j : Json} {d : Option String} {s' : Schema}
    (h : OutField f) (hi : InField f) (hs : jsonToSchema d j = .ok s')
    (hsame : Same f.schema (outline s')) :
    ∃ f', jsonToField d (.obj (fieldObj f j)) = .ok f' ∧ f'.schema = s' ∧
      SameField f (withType f' (outline f'.schema)) := by
  obtain ⟨hname, hdoc, hdef, hal, hord⟩ := fieldObj_get? f j h
  refine ⟨fieldOf (fieldObj f j) f.name s', ?_, rfl, ?_⟩
  · unfold jsonToField
    rw [getStr_of (o := some f.name) hname]
    simp only [schemaEntry_eq]
    rw [get?_fieldObj f j h]
    simp only [Option.map_some, hs]
  · constructor <;> simp only [withType, fieldOf, Field.name, Field.schema, Field.doc,
      Field.default, Field.order, Field.aliases, Field.props]
    · exact hsame
    · rw [getStr_of hdoc]; rfl
    · rw [hdef]; rfl
    · exact hord
    · rw [hal]; rfl
    · exact fieldObj_extra f j h hi

theorem definitionsF_eq (fs : List Field) :
    definitionsF fs = fs.flatMap fun f => definitions f.schema := by
  induction fs with
  | nil => simp [definitionsF]
  | cons f fs ih => cases f; simp [definitionsF, ih, Field.schema]

theorem definitionsL_eq (ss : List Schema) : definitionsL ss = ss.flatMap definitions := by
  induction ss with
  | nil => simp [definitionsL]
  | cons s ss ih => simp [definitionsL, ih]

theorem sameList_of_matching {l : List Schema} {l' : List Schema}
    (h : Matching (fun s s' => Same s (outline s')) l l') : SameList l (outlineList l') := by
  induction h with
  | nil => simp only [outlineList]; exact .nil
  | cons h _ ih => simp only [outlineList]; exact .cons h ih

theorem matching_map {α β γ : Type} {R : α → γ → Prop} {f : β → γ} {l : List α} {l' : List β}
    (h : Matching (fun a b => R a (f b)) l l') : Matching R l (l'.map f) := by
  induction h with
  | nil => exact .nil
  | cons h _ ih => exact .cons h ih

end Avdl
