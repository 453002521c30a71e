import Verif.Spec.Flat
import Verif.Lemmas.SerEvents
import Verif.Lemmas.SerFuel
/-! The serializer on flat type tables. -/

namespace Avdl

open Spec

mutual
theorem collectNamed_noDefs (d : Option String) : ∀ (s : Schema) (lk : Lookup),
    s.noDefs = true → collectNamed d s lk = lk
  | .record .., lk, h | .enum .., lk, h | .fixed .., lk, h => by simp [Schema.noDefs] at h
  | .array i _, lk, h => by
      simp only [Schema.noDefs] at h
      simpa only [collectNamed] using collectNamed_noDefs d i lk h
  | .map i _, lk, h => by
      simp only [Schema.noDefs] at h
      simpa only [collectNamed] using collectNamed_noDefs d i lk h
  | .union ts _, lk, h => by
      simp only [Schema.noDefs] at h
      simpa only [collectNamed] using collectNamedList_noDefs d ts lk h
  | .prim _, lk, _ | .annotated .., lk, _ | .logical .., lk, _ | .ref .., lk, _ => by
      simp only [collectNamed]
theorem collectNamedFields_noDefs (d : Option String) : ∀ (fs : List Field) (lk : Lookup),
    Schema.noDefsF fs = true → collectNamedFields d fs lk = lk
  | [], lk, _ => by simp only [collectNamedFields]
  | .mk _ s _ _ _ _ _ :: fs, lk, h => by
      simp only [Schema.noDefsF, Bool.and_eq_true] at h
      simp only [collectNamedFields, collectNamed_noDefs d s lk h.1]
      exact collectNamedFields_noDefs d fs lk h.2
theorem collectNamedList_noDefs (d : Option String) : ∀ (ss : List Schema) (lk : Lookup),
    Schema.noDefsL ss = true → collectNamedList d ss lk = lk
  | [], lk, _ => by simp only [collectNamedList]
  | s :: ss, lk, h => by
      simp only [Schema.noDefsL, Bool.and_eq_true] at h
      simp only [collectNamedList, collectNamed_noDefs d s lk h.1]
      exact collectNamedList_noDefs d ss lk h.2
end

/-- The key under which a definition is entered in the lookup table. -/
def lookupKey (d : Option String) (s : Schema) : String :=
  makeFullName (s.name?.getD "") (effectiveNs s.nsOf d)

theorem collectNamed_flat (d : Option String) (s : Schema) (lk : Lookup) (h : s.flatDef = true) :
    collectNamed d s lk = (lookupKey d s, s) :: lk := by
  cases s with
  | record n ns doc fs er al ps =>
    simp only [Schema.flatDef] at h
    simp only [collectNamed, collectNamedFields_noDefs _ fs _ h]
    rfl
  | enum => simp only [collectNamed]; rfl
  | fixed => simp only [collectNamed]; rfl
  | _ => simp [Schema.flatDef] at h

theorem buildLookup_flat (d : Option String) (types : List Schema)
    (h : ∀ t ∈ types, t.flatDef = true) :
    buildLookup types d = (types.map fun t => (lookupKey d t, t)).reverse := by
  suffices H : ∀ lk, collectNamedList d types lk =
      (types.map fun t => (lookupKey d t, t)).reverse ++ lk by
    simpa [buildLookup] using H []
  induction types with
  | nil => intro lk; simp [collectNamedList]
  | cons t ts ih =>
    intro lk
    simp only [collectNamedList, collectNamed_flat d t lk (h t (by simp))]
    rw [ih fun t ht => h t (List.mem_cons_of_mem _ ht)]
    simp

theorem lookupKey_eq {d : Option String} {s : Schema} (h : s.IsNamed)
    (hns : s.nsOf = none → nsStr d = "") : s.fullName? = some (lookupKey d s) := by
  have key : ∀ (n : String) (ns : Option String), (ns = none → nsStr d = "") →
      makeFullName n ns = makeFullName n (effectiveNs ns d) := by
    intro n ns hns
    cases ns with
    | some x => rfl
    | none =>
      rw [makeFullName_nsStr n none, makeFullName_nsStr n (effectiveNs none d)]
      simp only [effectiveNs, Option.none_or, hns rfl]
      rfl
  cases s with
  | record n ns doc fs er al ps => exact congrArg some (key n ns hns)
  | enum n ns => exact congrArg some (key n ns hns)
  | fixed n ns => exact congrArg some (key n ns hns)
  | _ => simp [Schema.IsNamed] at h

theorem Lookup.get?_of_mem_nodup {lk : Lookup} (hn : (lk.map Prod.fst).Nodup) {k : String}
    {t : Schema} (h : (k, t) ∈ lk) : lk.get? k = some t := by
  induction lk with
  | nil => simp at h
  | cons kt lk ih =>
    obtain ⟨k', t'⟩ := kt
    simp only [List.map_cons, List.nodup_cons] at hn
    simp only [Lookup.get?]
    rcases List.mem_cons.mp h with h | h
    · cases h; simp
    · have : k' ≠ k := by
        rintro rfl
        exact hn.1 (List.mem_map.mpr ⟨_, h, rfl⟩)
      rw [if_neg this]
      exact ih hn.2 h

/-- Full names of a list of definitions. -/
def fullNames (types : List Schema) : List String := types.filterMap Schema.fullName?

theorem mem_fullNames {types : List Schema} {x : String} :
    x ∈ fullNames types ↔ ∃ t ∈ types, t.fullName? = some x := by
  simp [fullNames, List.mem_filterMap]

/-- A coherent table: flat definitions with distinct full names, all references among them, every
type faithful in its own namespace, and no namespace-less type next to a non-empty default
namespace `d`. -/
structure TableOk (d : Option String) (types : List Schema) : Prop where
  flat : ∀ t ∈ types, t.flatDef = true
  distinct : (fullNames types).Nodup
  out : ∀ t ∈ types, t.OutOk (· ∈ fullNames types) (nsStr t.nsOf)
  ns : ∀ t ∈ types, t.nsOf = none → nsStr d = ""

section
variable {d : Option String} {types : List Schema} (H : TableOk d types)
include H

theorem TableOk.fullNames_eq : fullNames types = types.map (lookupKey d) := by
  have := H.flat
  have hns := H.ns
  clear H
  induction types with
  | nil => rfl
  | cons t ts ih =>
    have h1 := lookupKey_eq (d := d) (Schema.isNamed_of_flatDef (this t (by simp)))
      (hns t (by simp))
    simp only [fullNames, List.filterMap_cons, h1, List.map_cons]
    congr 1
    exact ih (fun t ht => this t (List.mem_cons_of_mem _ ht))
      (fun t ht => hns t (List.mem_cons_of_mem _ ht))

theorem TableOk.lookup_iff {x : String} {t : Schema} :
    (buildLookup types d).get? x = some t ↔ t ∈ types ∧ t.fullName? = some x := by
  have hnd : ((types.map fun t => (lookupKey d t, t)).reverse.map Prod.fst).Nodup := by
    rw [List.map_reverse, (List.reverse_perm _).nodup_iff]
    simpa [List.map_map, Function.comp_def] using H.fullNames_eq ▸ H.distinct
  rw [buildLookup_flat d types H.flat]
  constructor
  · intro h
    have := Lookup.mem_of_get? h
    simp only [List.mem_reverse, List.mem_map, Prod.mk.injEq] at this
    obtain ⟨t', ht, rfl, rfl⟩ := this
    exact ⟨ht, lookupKey_eq (Schema.isNamed_of_flatDef (H.flat _ ht)) (H.ns _ ht)⟩
  · rintro ⟨ht, hx⟩
    apply Lookup.get?_of_mem_nodup hnd
    rw [lookupKey_eq (d := d) (Schema.isNamed_of_flatDef (H.flat _ ht)) (H.ns _ ht)] at hx
    cases hx
    simp only [List.mem_reverse, List.mem_map]
    exact ⟨t, ht, rfl⟩

theorem TableOk.has_iff {x : String} :
    (buildLookup types d).Has x ↔ x ∈ fullNames types := by
  unfold Lookup.Has
  rw [Option.isSome_iff_exists, mem_fullNames]
  constructor
  · rintro ⟨t, ht⟩
    exact ⟨t, H.lookup_iff.mp ht⟩
  · rintro ⟨t, ht⟩
    exact ⟨t, H.lookup_iff.mpr ht⟩

theorem TableOk.has_eq : (buildLookup types d).Has = (· ∈ fullNames types) :=
  funext fun _ => propext H.has_iff

theorem TableOk.lookupOk : LookupOk (buildLookup types d) := by
  intro full t ht
  obtain ⟨hm, hf⟩ := H.lookup_iff.mp ht
  refine ⟨Schema.isNamed_of_flatDef (H.flat t hm), hf, ?_⟩
  have : (fun x => ((buildLookup types d).get? x).isSome = true) = (· ∈ fullNames types) := H.has_eq
  rw [this]
  exact H.out t hm

theorem TableOk.lookupNamed : LookupNamed (buildLookup types d) := by
  intro kt h
  rw [buildLookup_flat d types H.flat] at h
  simp only [List.mem_reverse, List.mem_map] at h
  obtain ⟨t, ht, rfl⟩ := h
  exact Schema.isNamed_of_flatDef (H.flat _ ht)

end

/-! ### What the set of emitted names can contain -/

theorem mapAccum_inv {α β σ : Type} {f : α → σ → Option (β × σ)} (I : σ → Prop) {l : List α}
    (h : ∀ a ∈ l, ∀ s b s', I s → f a s = some (b, s') → I s') {s s' : σ} {bs : List β}
    (hs : I s) (hm : mapAccum f l s = some (bs, s')) : I s' := by
  induction l generalizing s bs with
  | nil => simp only [mapAccum, Option.some.injEq, Prod.mk.injEq] at hm; exact hm.2 ▸ hs
  | cons a as ih =>
    simp only [mapAccum] at hm
    cases h1 : f a s with
    | none => rw [h1] at hm; cases hm
    | some r =>
      obtain ⟨b, s1⟩ := r
      rw [h1] at hm
      simp only at hm
      cases h2 : mapAccum f as s1 with
      | none => rw [h2] at hm; cases hm
      | some r =>
        obtain ⟨bs2, s2⟩ := r
        rw [h2] at hm
        simp only [Option.some.injEq, Prod.mk.injEq] at hm
        obtain ⟨-, rfl⟩ := hm
        exact ih (fun a ha => h a (List.mem_cons_of_mem _ ha)) (h a (by simp) _ _ _ hs h1) h2

/-- Emitting a schema only adds names of types of the table (or of the schema itself). -/
theorem ser_known_sub (lk : Lookup) (S : String → Prop)
    (hlk : ∀ k t, lk.get? k = some t → t.flatDef = true ∧ ∃ x, t.fullName? = some x ∧ S x)
    (n : Nat) : ∀ s encl K j K', (s.noDefs = true ∨ (s.flatDef = true ∧ ∃ x, s.fullName? = some x ∧ S x)) →
      (∀ x ∈ K, S x) → schemaToJson lk n s encl K = some (j, K') → ∀ x ∈ K', S x := by
  induction n with
  | zero => intro s encl K j K' _ _ h; simp [schemaToJson] at h
  | succ n ih =>
    intro s encl K j K' hs hK h
    cases s with
    | prim p =>
      simp only [schemaToJson, Option.some.injEq, Prod.mk.injEq] at h; exact h.2 ▸ hK
    | annotated k ps =>
      simp only [schemaToJson, Option.some.injEq, Prod.mk.injEq] at h; exact h.2 ▸ hK
    | logical lt ps =>
      simp only [schemaToJson, Option.some.injEq, Prod.mk.injEq] at h; exact h.2 ▸ hK
    | enum nm ns doc sy df al ps =>
      have hx : S (makeFullName nm ns) := by
        rcases hs with hs | ⟨-, x, hx, hS⟩
        · simp [Schema.noDefs] at hs
        · simp only [Schema.fullName?, Option.some.injEq] at hx; exact hx ▸ hS
      rcases preamble_cases "enum" nm ns doc encl K with ⟨hk, he⟩ | ⟨hk, obj, he⟩
      · simp only [schemaToJson, he, Option.some.injEq, Prod.mk.injEq] at h; exact h.2 ▸ hK
      · simp only [schemaToJson, he, Option.some.injEq, Prod.mk.injEq] at h
        intro x h'
        rw [← h.2] at h'
        rcases List.mem_cons.mp h' with rfl | h'
        · exact hx
        · exact hK x h'
    | fixed nm ns doc sz al ps =>
      have hx : S (makeFullName nm ns) := by
        rcases hs with hs | ⟨-, x, hx, hS⟩
        · simp [Schema.noDefs] at hs
        · simp only [Schema.fullName?, Option.some.injEq] at hx; exact hx ▸ hS
      rcases preamble_cases "fixed" nm ns doc encl K with ⟨hk, he⟩ | ⟨hk, obj, he⟩
      · simp only [schemaToJson, he, Option.some.injEq, Prod.mk.injEq] at h; exact h.2 ▸ hK
      · simp only [schemaToJson, he, Option.some.injEq, Prod.mk.injEq] at h
        intro x h'
        rw [← h.2] at h'
        rcases List.mem_cons.mp h' with rfl | h'
        · exact hx
        · exact hK x h'
    | record nm ns doc fs er al ps =>
      have hx : S (makeFullName nm ns) := by
        rcases hs with hs | ⟨-, x, hx, hS⟩
        · simp [Schema.noDefs] at hs
        · simp only [Schema.fullName?, Option.some.injEq] at hx; exact hx ▸ hS
      have hfs : ∀ f ∈ fs, f.schema.noDefs = true := by
        rcases hs with hs | ⟨hs, -⟩
        · simp [Schema.noDefs] at hs
        · exact (Schema.noDefsF_iff fs).mp hs
      rcases preamble_cases (if er = true then "error" else "record") nm ns doc encl K with
        ⟨hk, he⟩ | ⟨hk, obj, he⟩
      · simp only [schemaToJson, he, Option.some.injEq, Prod.mk.injEq] at h; exact h.2 ▸ hK
      · simp only [schemaToJson, he] at h
        cases hma : mapAccum (fieldToJson fun s k => schemaToJson lk n s (ns.or encl) k) fs
            (makeFullName nm ns :: K) with
        | none => rw [hma] at h; cases h
        | some r =>
          obtain ⟨fj, K2⟩ := r
          rw [hma] at h
          simp only [Option.some.injEq, Prod.mk.injEq] at h
          rw [← h.2]
          refine mapAccum_inv (fun K => ∀ x ∈ K, S x) ?_ ?_ hma
          · intro f hf K b K' hK hb
            simp only [fieldToJson] at hb
            cases hsr : schemaToJson lk n f.schema (ns.or encl) K with
            | none => rw [hsr] at hb; cases hb
            | some r =>
              obtain ⟨j2, K3⟩ := r
              rw [hsr] at hb
              simp only [Option.some.injEq, Prod.mk.injEq] at hb
              rw [← hb.2]
              exact ih _ _ _ _ _ (.inl (hfs f hf)) hK hsr
          · intro x h'
            rcases List.mem_cons.mp h' with rfl | h'
            · exact hx
            · exact hK x h'
    | array i ps =>
      have hi : i.noDefs = true := by
        rcases hs with hs | ⟨hs, -⟩
        · simpa only [Schema.noDefs] using hs
        · simp [Schema.flatDef] at hs
      simp only [schemaToJson] at h
      cases hsr : schemaToJson lk n i encl K with
      | none => rw [hsr] at h; cases h
      | some r =>
        obtain ⟨j2, K3⟩ := r
        rw [hsr] at h
        simp only [Option.some.injEq, Prod.mk.injEq] at h
        rw [← h.2]
        exact ih _ _ _ _ _ (.inl hi) hK hsr
    | map i ps =>
      have hi : i.noDefs = true := by
        rcases hs with hs | ⟨hs, -⟩
        · simpa only [Schema.noDefs] using hs
        · simp [Schema.flatDef] at hs
      simp only [schemaToJson] at h
      cases hsr : schemaToJson lk n i encl K with
      | none => rw [hsr] at h; cases h
      | some r =>
        obtain ⟨j2, K3⟩ := r
        rw [hsr] at h
        simp only [Option.some.injEq, Prod.mk.injEq] at h
        rw [← h.2]
        exact ih _ _ _ _ _ (.inl hi) hK hsr
    | union ts b =>
      have hts : ∀ t ∈ ts, t.noDefs = true := by
        rcases hs with hs | ⟨hs, -⟩
        · simp only [Schema.noDefs] at hs; exact (Schema.noDefsL_iff ts).mp hs
        · simp [Schema.flatDef] at hs
      simp only [schemaToJson] at h
      cases hma : mapAccum (fun s k => schemaToJson lk n s encl k) ts K with
      | none => rw [hma] at h; cases h
      | some r =>
        obtain ⟨j2, K3⟩ := r
        rw [hma] at h
        simp only [Option.some.injEq, Prod.mk.injEq] at h
        rw [← h.2]
        exact mapAccum_inv (fun K => ∀ x ∈ K, S x)
          (fun t ht K b K' hK hb => ih _ _ _ _ _ (.inl (hts t ht)) hK hb) hK hma
    | ref nm ns ps sp =>
      simp only [schemaToJson] at h
      split at h
      · simp only [Option.some.injEq, Prod.mk.injEq] at h; exact h.2 ▸ hK
      · cases hl : lk.get? (makeFullName nm ns) with
        | none =>
          rw [hl] at h
          simp only [Option.some.injEq, Prod.mk.injEq] at h; exact h.2 ▸ hK
        | some t =>
          rw [hl] at h
          exact ih _ _ _ _ _ (.inr (hlk _ _ hl)) hK h

/-- Emitting a schema without definitions all of whose references are already emitted adds no
name. -/
theorem ser_known_same (lk : Lookup) (n : Nat) : ∀ s encl e K j K', s.noDefs = true →
    s.Everywhere (OutNode (· ∈ K)) OutField e →
    schemaToJson lk n s encl K = some (j, K') → K' = K := by
  induction n with
  | zero => intro s encl e K j K' _ _ h; simp [schemaToJson] at h
  | succ n ih =>
    intro s encl e K j K' hs hK h
    cases s with
    | prim p => simp only [schemaToJson, Option.some.injEq, Prod.mk.injEq] at h; exact h.2.symm
    | annotated k ps =>
      simp only [schemaToJson, Option.some.injEq, Prod.mk.injEq] at h; exact h.2.symm
    | logical lt ps =>
      simp only [schemaToJson, Option.some.injEq, Prod.mk.injEq] at h; exact h.2.symm
    | enum => simp [Schema.noDefs] at hs
    | fixed => simp [Schema.noDefs] at hs
    | record => simp [Schema.noDefs] at hs
    | array i ps =>
      simp only [Schema.noDefs] at hs
      simp only [schemaToJson] at h
      cases hsr : schemaToJson lk n i encl K with
      | none => rw [hsr] at h; cases h
      | some r =>
        obtain ⟨j2, K3⟩ := r
        rw [hsr] at h
        simp only [Option.some.injEq, Prod.mk.injEq] at h
        rw [← h.2]
        exact ih _ _ _ _ _ _ hs hK.2 hsr
    | map i ps =>
      simp only [Schema.noDefs] at hs
      simp only [schemaToJson] at h
      cases hsr : schemaToJson lk n i encl K with
      | none => rw [hsr] at h; cases h
      | some r =>
        obtain ⟨j2, K3⟩ := r
        rw [hsr] at h
        simp only [Option.some.injEq, Prod.mk.injEq] at h
        rw [← h.2]
        exact ih _ _ _ _ _ _ hs hK.2 hsr
    | union ts b =>
      simp only [Schema.noDefs] at hs
      have hts := (Schema.noDefsL_iff ts).mp hs
      have hK2 := (Schema.everywhereL_iff ts).mp hK.2
      simp only [schemaToJson] at h
      cases hma : mapAccum (fun s k => schemaToJson lk n s encl k) ts K with
      | none => rw [hma] at h; cases h
      | some r =>
        obtain ⟨j2, K3⟩ := r
        rw [hma] at h
        simp only [Option.some.injEq, Prod.mk.injEq] at h
        rw [← h.2]
        exact mapAccum_inv (fun K2 => K2 = K)
          (fun t ht K2 b K' hK' hb => by
            subst hK'
            exact ih _ _ _ _ _ _ (hts t ht) (hK2 t ht) hb) rfl hma
    | ref nm ns ps sp =>
      have : makeFullName nm ns ∈ K := hK.2
      simp only [schemaToJson, List.contains_iff_mem, this, if_true, Option.some.injEq,
        Prod.mk.injEq] at h
      exact h.2.symm

/-- Emitted names stay emitted. -/
theorem ser_known_grows (lk : Lookup) (hlk : LookupNamed lk) (n : Nat) {s encl K j K'}
    (h : schemaToJson lk n s encl K = some (j, K')) : ∀ x ∈ K, x ∈ K' := by
  obtain ⟨j2, K2, h2, hs⟩ := ser_total lk hlk (n + serBound lk s K) s encl K (by omega)
  rw [ser_mono lk (Nat.le_add_right n _) h] at h2
  cases h2
  exact hs

/-- Emitting a definition records its name. -/
theorem ser_named_known (lk : Lookup) (hlk : LookupNamed lk) (n : Nat) {s encl K j K' x} (hx : s.fullName? = some x)
    (hn : s.IsNamed) (h : schemaToJson lk n s encl K = some (j, K')) : x ∈ K' := by
  cases n with
  | zero => simp [schemaToJson] at h
  | succ n =>
    cases s with
    | record nm ns doc fs er al ps =>
      simp only [Schema.fullName?, Option.some.injEq] at hx
      rcases preamble_cases (if er = true then "error" else "record") nm ns doc encl K with
        ⟨hk, he⟩ | ⟨hk, obj, he⟩
      · simp only [schemaToJson, he, Option.some.injEq, Prod.mk.injEq] at h
        rw [← h.2, ← hx]; exact hk
      · simp only [schemaToJson, he] at h
        cases hma : mapAccum (fieldToJson fun s k => schemaToJson lk n s (ns.or encl) k) fs
            (makeFullName nm ns :: K) with
        | none => rw [hma] at h; cases h
        | some r =>
          obtain ⟨fj, K2⟩ := r
          rw [hma] at h
          simp only [Option.some.injEq, Prod.mk.injEq] at h
          rw [← h.2]
          refine mapAccum_inv (fun K2 => x ∈ K2) ?_ (by simp [hx]) hma
          intro f hf K b K' hK hb
          simp only [fieldToJson] at hb
          cases hsr : schemaToJson lk n f.schema (ns.or encl) K with
          | none => rw [hsr] at hb; cases hb
          | some r =>
            obtain ⟨j2, K3⟩ := r
            rw [hsr] at hb
            simp only [Option.some.injEq, Prod.mk.injEq] at hb
            rw [← hb.2]
            exact ser_known_grows lk hlk n hsr x hK
    | enum nm ns doc sy df al ps =>
      simp only [Schema.fullName?, Option.some.injEq] at hx
      rcases preamble_cases "enum" nm ns doc encl K with ⟨hk, he⟩ | ⟨hk, obj, he⟩
      · simp only [schemaToJson, he, Option.some.injEq, Prod.mk.injEq] at h
        rw [← h.2, ← hx]; exact hk
      · simp only [schemaToJson, he, Option.some.injEq, Prod.mk.injEq] at h
        rw [← h.2]; simp [hx]
    | fixed nm ns doc sz al ps =>
      simp only [Schema.fullName?, Option.some.injEq] at hx
      rcases preamble_cases "fixed" nm ns doc encl K with ⟨hk, he⟩ | ⟨hk, obj, he⟩
      · simp only [schemaToJson, he, Option.some.injEq, Prod.mk.injEq] at h
        rw [← h.2, ← hx]; exact hk
      · simp only [schemaToJson, he, Option.some.injEq, Prod.mk.injEq] at h
        rw [← h.2]; simp [hx]
    | _ => simp [Schema.IsNamed] at hn

end Avdl
