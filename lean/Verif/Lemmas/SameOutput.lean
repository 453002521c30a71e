import Verif.Lemmas.Reimport
import Verif.Lemmas.Reorder
import Verif.Lemmas.Local
/-!
# Lemmas: the same types have the same documents
-/

namespace Avdl
open Spec

/-! ### Names -/

theorem schemaRefName_sameNs (n : String) {ns ns' encl encl' : Option String} (h : SameNs ns ns')
    (he : SameNs encl encl') : schemaRefName n ns encl = schemaRefName n ns' encl' := by
  have bare : ∀ (o e : Option String), nsStr o = "" → schemaRefName n o e = n := by
    intro o e ho
    have : makeFullName n o = n := by
      cases o with
      | none => rfl
      | some x => simp only [nsStr, Option.getD_some] at ho; simp [makeFullName, ho]
    unfold schemaRefName
    rw [this]
    split <;> simp
  by_cases hn : nsStr ns = ""
  · rw [bare ns encl hn, bare ns' encl' (h ▸ hn)]
  · have some_of : ∀ {o : Option String}, nsStr o ≠ "" → o = some (nsStr o) := by
      intro o ho
      cases o with
      | none => exact absurd rfl ho
      | some x => rfl
    have h1 := some_of hn
    have h2 := some_of (show nsStr ns' ≠ "" from h ▸ hn)
    rw [← show nsStr ns = nsStr ns' from h, ← h1] at h2
    subst h2
    unfold schemaRefName
    have : (ns' = encl) ↔ (ns' = encl') := by
      constructor
      · intro e
        have : nsStr encl' ≠ "" := by rw [← show nsStr encl = nsStr encl' from he, ← e]; exact hn
        rw [some_of this, ← show nsStr encl = nsStr encl' from he, ← e]; exact h1
      · intro e
        have : nsStr encl ≠ "" := by rw [show nsStr encl = nsStr encl' from he, ← e]; exact hn
        rw [some_of this, show nsStr encl = nsStr encl' from he, ← e]; exact h1
    simp only [this]

theorem aliasRefName_same {ns ns' : Option String} (h : SameNs ns ns') {a a' : String}
    (ha : SameAlias ns a a') : aliasRefName a ns = aliasRefName a' ns' := by
  rcases ha with rfl | ⟨hne, rfl, hd, hp, hc⟩
  · unfold aliasRefName
    cases splitFullName a' with
    | mk x o =>
      cases o with
      | none => rfl
      | some q => exact schemaRefName_sameNs x rfl h
  · have h1 : aliasRefName a' ns' = a' := by
      unfold aliasRefName
      rw [splitFullName_dotfree hd]
    have h2 : ns = some (nsStr ns) := by
      cases ns with
      | none => exact absurd rfl hne
      | some x => rfl
    have h3 := splitFullName_make (n := a') hd hne
    simp only [makeFullName, hne, if_false] at h3
    have h4 : isSchemaTypeName a' = false := by
      unfold isSchemaTypeName
      simp [hp, hc]
    rw [h1]
    unfold aliasRefName
    rw [h3]
    simp only
    rw [← h2]
    simp [schemaRefName, h4]

theorem aliases_same {ns ns' : Option String} (h : SameNs ns ns') {al al' : List String}
    (ha : SameAliases ns al al') :
    al.map (fun a => aliasRefName a ns) = al'.map (fun a => aliasRefName a ns') := by
  unfold SameAliases at ha
  induction ha with
  | nil => rfl
  | cons h1 _ ih => rw [List.map_cons, List.map_cons, ih, aliasRefName_same h h1]

theorem preamble_sameNs (t n : String) (d : Option String) (K : Known)
    {ns ns' encl encl' : Option String} (h : SameNs ns ns') (he : SameNs encl encl')
    (hn : nsStr ns = "" → nsStr encl = "") :
    namedTypePreamble t n ns d K encl = namedTypePreamble t n ns' d K encl' := by
  unfold namedTypePreamble
  simp only
  rw [← makeFullName_sameNs h, schemaRefName_sameNs n h he]
  split
  · rfl
  · congr 2
    rcases ns with _ | x <;> rcases ns' with _ | x' <;> rcases encl with _ | y <;>
      rcases encl' with _ | y' <;> simp only [SameNs, nsStr, Option.getD_some, Option.getD_none]
        at h he hn <;> subst_vars <;> simp_all

theorem sameNs_or {ns ns' encl encl' : Option String} (h : SameNs ns ns') (he : SameNs encl encl')
    (hn : nsStr ns = "" → nsStr encl = "") : SameNs (ns.or encl) (ns'.or encl') := by
  have key : ∀ (o e : Option String), (nsStr o = "" → nsStr e = "") → nsStr (o.or e) = nsStr o := by
    intro o e hoe
    cases o with
    | none => simpa [nsStr] using hoe rfl
    | some x => rfl
  unfold SameNs
  rw [key ns encl hn, key ns' encl'
    (by rw [← show nsStr ns = nsStr ns' from h, ← show nsStr encl = nsStr encl' from he]; exact hn)]
  exact h

/-! ### Objects -/

theorem finish_same {obj : JMap} (hobj : obj.Sorted) {ps ps' : Props} (hp : SameMap ps ps')
    {ns ns' : Option String} (h : SameNs ns ns') {al al' : List String}
    (ha : SameAliases ns al al') :
    finishNamedType obj ps al ns = finishNamedType obj ps' al' ns' := by
  rw [finish_reordered hobj hp]
  have h1 := aliases_same h ha
  have h2 : (al = []) ↔ (al' = []) := by
    unfold SameAliases at ha
    cases ha <;> simp
  have h3 : (al.map fun a => Json.str (aliasRefName a ns)) =
      al'.map fun a => Json.str (aliasRefName a ns') := by
    have := congrArg (List.map Json.str) h1
    simpa [List.map_map, Function.comp_def] using this
  unfold finishNamedType
  simp only [h2, h3]

theorem fieldObj_same {f f' : Field} (h : SameField f f') (j : Json) :
    fieldObj f j = fieldObj f' j := by
  obtain ⟨n, s, d, df, o, al, ps⟩ := f
  obtain ⟨n', s', d', df', o', al', ps'⟩ := f'
  obtain ⟨h1, _, h3, h4, h5, h6, h7⟩ := h
  simp only [Field.name, Field.doc, Field.default, Field.aliases, Field.props, Field.order] at *
  subst h1 h3 h4 h6
  rw [fieldObj_reordered (s' := s') h7]
  have : ∀ obj, orderEntry o obj = orderEntry o' obj := by
    intro obj
    unfold SameOrder at h5
    rcases o with _ | _ | _ | _ <;> rcases o' with _ | _ | _ | _ <;>
      simp [orderEntry] at h5 ⊢
  unfold fieldObj
  simp only [Field.name, Field.doc, Field.default, Field.aliases, Field.props, Field.order, this]
  rfl

/-! ### Documents -/

/-- The two tables have the same definitions of the names `R`. -/
structure SameLookup (R : String → Prop) (lk lk' : Lookup) : Prop where
  types : ∀ x, R x → ∃ t t', lk.get? x = some t ∧ lk'.get? x = some t' ∧ SameDef t t'
  kept : ∀ x t, R x → lk.get? x = some t → t.Kept
  closed : ∀ x t y sp, R x → lk.get? x = some t → RefersTo t y sp → R y

theorem mapAccum_fields_same {f g : Schema → Known → Option (Json × Known)} {fs fs' : List Field}
    (h : Matching SameField fs fs')
    (H : ∀ x ∈ fs, ∀ s', Same x.schema s' → ∀ K, f x.schema K = g s' K) : ∀ K,
    mapAccum (fieldToJson f) fs K = mapAccum (fieldToJson g) fs' K := by
  induction h with
  | nil => intro K; rfl
  | @cons x x' fs fs' h1 _ ih =>
    intro K
    have : fieldToJson f x K = fieldToJson g x' K := by
      simp only [fieldToJson, H x (by simp) _ h1.type K]
      cases g x'.schema K with
      | none => rfl
      | some r => simp only [fieldObj_same h1]
    simp only [mapAccum, this]
    cases fieldToJson g x' K with
    | none => rfl
    | some r => simp only [ih fun x hx => H x (by simp [hx])]

theorem mapAccum_list_same {f g : Schema → Known → Option (Json × Known)} {ss ss' : List Schema}
    (h : SameList ss ss') (H : ∀ s ∈ ss, ∀ s', Same s s' → ∀ K, f s K = g s' K) : ∀ K,
    mapAccum f ss K = mapAccum g ss' K := by
  induction ss generalizing ss' with
  | nil => intro K; cases h; rfl
  | cons x ss ih =>
    intro K
    cases h with
    | @cons s s' _ ss' hs hf =>
      simp only [mapAccum, H x (by simp) s' hs]
      cases g s' K with
      | none => rfl
      | some r => simp only [ih hf fun s hs => H s (by simp [hs])]

theorem ser_sameTypes {R : String → Prop} {lk lk' : Lookup} (hlk : LookupOk lk)
    (hl : SameLookup R lk lk') (n : Nat) :
    (∀ s s' encl encl' K, Same s s' → s.Kept → s.OutOk lk.Has (nsStr encl) →
      (∀ x sp, RefersTo s x sp → R x) → SameNs encl encl' →
      schemaToJson lk n s encl K = schemaToJson lk' n s' encl' K) ∧
    (∀ t t' x encl encl' K, SameDef t t' → R x → lk.get? x = some t →
      (nsStr t.nsOf = "" → nsStr encl = "") → SameNs encl encl' →
      schemaToJson lk n t encl K = schemaToJson lk' n t' encl' K) := by
  induction n with
  | zero => exact ⟨fun _ _ _ _ _ _ _ _ _ _ => rfl, fun _ _ _ _ _ _ _ _ _ _ _ => rfl⟩
  | succ n ih =>
    refine ⟨?_, ?_⟩
    · intro s s' encl encl' K h hk hok hR he
      cases h with
      | prim => rfl
      | bare => exact absurd hk.2 (by simp)
      | annotated hp =>
        simp only [schemaToJson]
        rw [hp.insertAll (sorted_nil.insert _ _)]
      | logical hp => simp only [schemaToJson, logicalObj_reordered _ hp]
      | @array i i' ps ps' hi hp =>
        simp only [Schema.OutOk, Schema.Everywhere] at hok
        simp only [schemaToJson]
        rw [ih.1 i i' encl encl' K hi hk.2 hok.2 (fun x sp hx => hR x sp (.items hx)) he]
        split
        · rfl
        · rw [hp.insertAll ((sorted_nil.insert _ _).insert _ _)]
      | @map i i' ps ps' hi hp =>
        simp only [Schema.OutOk, Schema.Everywhere] at hok
        simp only [schemaToJson]
        rw [ih.1 i i' encl encl' K hi hk.2 hok.2 (fun x sp hx => hR x sp (.values hx)) he]
        split
        · rfl
        · rw [hp.insertAll ((sorted_nil.insert _ _).insert _ _)]
      | @union ts ts' b b' ht =>
        simp only [Schema.OutOk, Schema.Everywhere] at hok
        have ho := (Schema.everywhereL_iff ts).mp hok.2
        have hk' := (Schema.keptL_iff ts).mp hk
        simp only [schemaToJson]
        rw [mapAccum_list_same ht (g := fun s k => schemaToJson lk' n s encl' k)
          fun s hs s' h' K => ih.1 s s' encl encl' K h' (hk' s hs) (ho s hs)
            (fun x sp hx => hR x sp (.branch hs hx)) he]
      | @ref nm ns ns' ps ps' sp sp' hn hp =>
        simp only [Schema.OutOk, Schema.Everywhere, OutNode] at hok
        simp only [schemaToJson, ← makeFullName_sameNs hn, schemaRefName_sameNs nm hn he]
        split
        · rfl
        · have hr := hR _ _ (.ref (n := nm) (ns := ns) (ps := ps) (sp := sp))
          obtain ⟨t, t', h1, h2, h3⟩ := hl.types _ hr
          rw [h1, h2]
          refine ih.2 t t' _ encl encl' K h3 hr h1 ?_ he
          intro h0
          obtain ⟨hnamed, hfull, htok⟩ := hlk _ _ h1
          obtain ⟨tn, htn, htf⟩ := named_fullName hnamed
          rw [hfull, Option.some.injEq] at htf
          obtain ⟨_, hnsn⟩ := makeFullName_inj hok.1.1 (named_dotFree hnamed htok htn) htf
          exact hok.1.2.2 (hnsn.trans h0)
    · intro t t' x encl encl' K h hr hg hns he
      obtain ⟨_, _, hok⟩ := hlk _ _ hg
      have hk := hl.kept _ _ hr hg
      cases h with
      | @enum nm ns ns' d sy df al al' ps ps' h ha hp =>
        simp only [schemaToJson, preamble_sameNs _ _ _ _ h he hns]
        cases hpre : namedTypePreamble "enum" nm ns' d K encl' with
        | error j => rfl
        | ok r =>
          obtain ⟨obj, K1⟩ := r
          have : (enumObj sy df obj).Sorted := by
            unfold enumObj
            cases df
            · exact (preamble_sorted hpre).insert _ _
            · exact ((preamble_sorted hpre).insert _ _).insert _ _
          simp only [finish_same this hp h ha]
      | @fixed nm ns ns' d sz al al' ps ps' h ha hp =>
        simp only [schemaToJson, preamble_sameNs _ _ _ _ h he hns]
        cases hpre : namedTypePreamble "fixed" nm ns' d K encl' with
        | error j => rfl
        | ok r =>
          obtain ⟨obj, K1⟩ := r
          simp only [finish_same ((preamble_sorted hpre).insert _ _) hp h ha]
      | @record nm ns ns' d fs fs' e al al' ps ps' h hf ha hp =>
        simp only [schemaToJson, preamble_sameNs _ _ _ _ h he hns]
        cases hpre : namedTypePreamble (if e then "error" else "record") nm ns' d K encl' with
        | error j => rfl
        | ok r =>
          obtain ⟨obj, K1⟩ := r
          simp only [Schema.OutOk, Schema.Everywhere] at hok
          have ho := (Schema.everywhereF_iff fs).mp hok.2
          have hk' := (Schema.keptF_iff fs).mp hk.2
          simp only
          rw [mapAccum_fields_same hf (g := fun s k => schemaToJson lk' n s (ns'.or encl') k)
            fun f hf' s' hs K => ih.1 f.schema s' (ns.or encl) (ns'.or encl') K hs (hk' f hf').2
              (by
                have := (ho f hf').2
                rw [innerNs_eq (fun h0 => by subst h0; rfl)] at this
                have e1 : nsStr (ns.or encl) = nsStr ns := by
                  cases ns with
                  | none => simpa [nsStr, Schema.nsOf] using hns rfl
                  | some x => rfl
                rw [e1]; exact this)
              (fun y sp hy => hl.closed _ _ y sp hr hg (.field hf' hy)) (sameNs_or h he hns)]
          cases mapAccum (fieldToJson fun s k => schemaToJson lk' n s (ns'.or encl') k) fs' K1 with
          | none => rfl
          | some r => simp only [finish_same ((preamble_sorted hpre).insert _ _) hp h ha]

end Avdl
