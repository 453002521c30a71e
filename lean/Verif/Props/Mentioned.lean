import Verif.Lemmas.Closed
import Verif.Lemmas.RoundTripSchema
import Verif.Props.EndToEnd
import Verif.Props.Layout
/-!
# C46: the document of a schema defines exactly the types the schema mentions
-/

namespace Avdl.Props
open Spec

theorem TableOk.flatLookup {d : Option String} {types : List Schema} (H : TableOk d types) :
    FlatLookup (buildLookup types d) := by
  intro full t h
  obtain ⟨h1, h2⟩ := H.lookup_iff.1 h
  exact ⟨H.flat t h1, h2⟩

/-- Every document of an extraction is written for its type on its own. -/
theorem extracted_docs {n : Nat} {types : List Schema} {docs : List (String × Json)}
    (hn : ∀ t ∈ types, t.IsNamed) (h : extractSchemas n types = some docs) :
    ∀ tj ∈ types.zip (docs.map Prod.snd),
      ∃ K, schemaToJson (buildLookup types none) n tj.1 none [] = some (tj.2, K) := by
  unfold extractSchemas at h
  generalize buildLookup types none = lk at h
  induction types generalizing docs with
  | nil => simp
  | cons t ts ih =>
    obtain ⟨nm, hnm, _⟩ := named_fullName (hn t (by simp))
    simp only [extractSchemas.go, hnm] at h
    cases h1 : schemaToJson lk n t none [] with
    | none => rw [h1] at h; cases h
    | some r =>
      obtain ⟨j, K⟩ := r
      rw [h1] at h
      simp only at h
      cases h2 : extractSchemas.go n lk ts with
      | none => rw [h2] at h; cases h
      | some rest =>
        rw [h2] at h
        simp only [Option.map_some, Option.some.injEq] at h
        subst h
        intro tj htj
        rcases List.mem_cons.1 htj with rfl | htj
        · exact ⟨K, h1⟩
        · exact ih (fun t ht => hn t (by simp [ht])) h2 tj htj

section
variable [CharTables] [FloatTables] [CaseTables]

/-- The table the writer uses is the registry. -/
theorem lookup_registry {b b' : Builder} {w : World} {fuel : Nat} {text name : String}
    {dir : Path} {path : Option Path} {out : CompileOutput}
    (h : b.compile w fuel text name dir path = (.ok out, b'))
    (hc : Coherent out.registry.schemas) :
    (buildLookup out.registry.schemas none).get? = out.registry.find? := by
  have hT := compile_tableOk h (d := none) hc (fun hne => absurd rfl hne)
  obtain ⟨_, _, _, es, _, _, _, _, _, h4, _⟩ := compile_ok h
  have hok := C08_registry_ok (es.flatMap Event.types)
  rw [← h4] at hok
  have key : ∀ x t, out.registry.find? x = some t ↔
      (buildLookup out.registry.schemas none).get? x = some t := by
    intro x t
    rw [hT.lookup_iff]
    constructor
    · intro hx
      have hm := Registry.mem_of_find? hx
      exact ⟨List.mem_map.2 ⟨_, hm, rfl⟩, (hok _ hm).2⟩
    · rintro ⟨ht, hf⟩
      obtain ⟨kt, hkt, rfl⟩ := List.mem_map.1 ht
      have hk : kt.1 = x := by
        have := (hok kt hkt).2
        rw [hf] at this
        injection this with this
        exact this.symm
      have hmem : x ∈ out.registry.names := hk ▸ List.mem_map_of_mem hkt
      obtain ⟨t', ht'⟩ := Option.isSome_iff_exists.1 ((Registry.find?_isSome_iff _ x).2 hmem)
      have hm' := Registry.mem_of_find? ht'
      have hd := hT.distinct
      have h1 := hT.lookup_iff.2 ⟨List.mem_map.2 ⟨kt, hkt, rfl⟩, hf⟩
      have h2 := hT.lookup_iff.2 ⟨List.mem_map.2 ⟨_, hm', rfl⟩, (hok _ hm').2⟩
      rw [h1] at h2
      injection h2 with h2
      rw [ht', h2]
  funext x
  cases hx : out.registry.find? x with
  | some t => exact (key x t).1 hx
  | none =>
    cases hy : (buildLookup out.registry.schemas none).get? x with
    | none => rfl
    | some t => rw [(key x t).2 hy] at hx; cases hx

/-- **C46.** The document of a schema file defines, once each, exactly the types the schema
mentions: those it refers to, those their definitions refer to, and so on.

Full property: for all inputs; the condition is that of `C03`/`C04` (namespaces are not mixed). -/
theorem C46_convert_partial {b : Builder} {w : World} {fuel : Nat} {out : CompileOutput} {j : Json}
    {s : Schema} (h : Converts b w fuel out j) (hs : out.file = .schema s)
    (hc : Coherent out.registry.schemas) :
    (defs (events "" j)).Nodup ∧
      ∀ x, x ∈ defs (events "" j) ↔ Mentions out.registry.find? s x := by
  have hc' : CoherentOutput out := by unfold CoherentOutput; rw [hs]; exact hc
  have hd : documentEvents out j = events "" j := by unfold documentEvents; rw [hs]
  refine ⟨hd ▸ C03_convert_partial h hc', fun x => ?_⟩
  obtain ⟨⟨text, name, dir, path, b', h⟩, hj⟩ := h.compiled
  have hT := compile_tableOk h (d := none) hc (fun hne => absurd rfl hne)
  obtain ⟨hnd, hout⟩ := compile_schema h hs hc
  have hlk := lookup_registry h hc
  have hr := compile_refs h
  unfold outputJson at hj
  rw [hs] at hj hr
  simp only at hj
  cases hser : schemaToJson (buildLookup out.registry.schemas none) fuel s none [] with
  | none => rw [hser] at hj; cases hj
  | some r =>
    obtain ⟨j', K⟩ := r
    rw [hser] at hj
    simp only [Option.map_some, Option.some.injEq] at hj
    subst hj
    have hrun := (ser_events _ hT.lookupOk fuel).1 s none [] j' K
      (by rw [hT.has_eq]; exact hout) hser
    have hK := run_defs hrun
    rw [List.append_nil] at hK
    have hmem : x ∈ defs (events "" j') ↔ x ∈ K := by rw [hK, List.mem_reverse]; rfl
    rw [hmem, ← hlk]
    have ha := (ser_adds _ (TableOk.flatLookup hT) fuel).1 s none [] j' K hnd hser
    constructor
    · intro hx
      rcases ha.only x hx with h1 | h1 | h1
      · cases h1
      · cases h1
      · exact mentions_of_reaches h1
    · refine ha.mentions (fun x hx t ht => ha.covers x t hx ht) ?_ ?_
      · rintro full t ht y ⟨sp, hy⟩
        rw [hlk] at ht ⊢
        refine Option.isSome_iff_exists.1 ((Registry.find?_isSome_iff _ y).2 ?_)
        exact hr.1 t (List.mem_map.2 ⟨_, Registry.mem_of_find? ht, rfl⟩) y sp hy
      · rintro y ⟨sp, hy⟩
        rw [hlk]
        exact Option.isSome_iff_exists.1 ((Registry.find?_isSome_iff _ y).2
          (hr.2 y (.schema hy)))

/-- **C46.** Each document of an extraction defines, once each, exactly its own type and the types
this mentions. -/
theorem C46_extract_partial {b : Builder} {w : World} {fuel : Nat} {out : CompileOutput}
    {docs : List (String × Json)} (h : Extracts b w fuel out docs)
    (hc : Coherent out.registry.schemas) :
    ∀ tj ∈ out.registry.zip (docs.map Prod.snd),
      (defs (events "" tj.2)).Nodup ∧
      ∀ x, x ∈ defs (events "" tj.2) ↔ x = tj.1.1 ∨ Mentions out.registry.find? tj.1.2 x := by
  obtain ⟨⟨text, name, dir, path, b', h⟩, he⟩ := h.compiled
  have hT := compile_tableOk h (d := none) hc (fun hne => absurd rfl hne)
  obtain ⟨_, _, _, es, _, _, _, _, _, h4, _⟩ := compile_ok h
  have hok := C08_registry_ok (es.flatMap Event.types)
  rw [← h4] at hok
  have hlk := lookup_registry h hc
  have hr := compile_refs h
  have hnamed : ∀ t ∈ out.registry.schemas, t.IsNamed := fun t ht =>
    Schema.isNamed_of_flatDef (hT.flat t ht)
  intro tj htj
  have hz : (tj.1.2, tj.2) ∈ out.registry.schemas.zip (docs.map Prod.snd) := by
    unfold Registry.schemas
    rw [List.zip_map_left]
    exact List.mem_map.2 ⟨tj, htj, rfl⟩
  obtain ⟨K, hser⟩ := extracted_docs hnamed he _ hz
  have htm : tj.1 ∈ out.registry := (List.of_mem_zip htj).1
  have ht : tj.1.2 ∈ out.registry.schemas := List.mem_map.2 ⟨_, htm, rfl⟩
  have hfull := (hok _ htm).2
  have hget := hT.lookup_iff.2 ⟨ht, hfull⟩
  have hrun : run (events "" tj.2) [] = some K :=
    (ser_events _ hT.lookupOk fuel).2 _ none [] _ K (hnamed _ ht)
      (by rw [hT.has_eq]; exact hT.out _ ht) (hT.ns _ ht) (by simp) hser
  have hK := run_defs hrun
  rw [List.append_nil] at hK
  refine ⟨?_, fun x => ?_⟩
  · have := run_nodup List.nodup_nil hrun
    rw [hK] at this
    exact (List.reverse_perm _).nodup_iff.mp this
  · have hmem : x ∈ defs (events "" tj.2) ↔ x ∈ K := by rw [hK, List.mem_reverse]
    rw [hmem, ← hlk]
    have ha := (ser_adds _ (TableOk.flatLookup hT) fuel).2 _ none [] _ K _ hget (by simp) hser
    constructor
    · intro hx
      rcases ha.only x hx with h1 | h1 | h1
      · cases h1
      · injection h1 with h1; exact .inl h1.symm
      · exact .inr (mentions_of_reaches h1)
    · rintro (rfl | hm)
      · exact ha.owned _ rfl
      · refine ha.mentions (fun x hx t ht => ha.covers x t hx ht) ?_ ?_ hm
        · rintro full t ht y ⟨sp, hy⟩
          rw [hlk] at ht ⊢
          refine Option.isSome_iff_exists.1 ((Registry.find?_isSome_iff _ y).2 ?_)
          exact hr.1 t (List.mem_map.2 ⟨_, Registry.mem_of_find? ht, rfl⟩) y sp hy
        · rintro y ⟨sp, hy⟩
          rw [hlk]
          exact Option.isSome_iff_exists.1 ((Registry.find?_isSome_iff _ y).2
            (hr.1 _ ht y sp hy))

end

/-! ## An example -/

section
attribute [local instance] asciiTables exFloats exCases

/-- A schema file with three types, two of which the schema mentions. -/
def exMentionFile (p : Path) : Option String :=
  if p = "a" then some "namespace p;schema array<R>;record R{E e;}record S{R r;}enum E{X}" else none

def exMentionOut : CompileOutput :=
  compiledOr (Builder.new.compileFile (exLayoutWorld exMentionFile) 9 "a")
def exMentionDoc : Json := jsonOr (Builder.new.convert (exLayoutWorld exMentionFile) 9 "a")

/-- The file declares a schema. -/
def isSchemaFile : IdlFile → Bool
  | .schema _ => true
  | _ => false

theorem exMention_checks : ((Builder.new.compileFile (exLayoutWorld exMentionFile) 9 "a").1.toBool &&
    (Builder.new.convert (exLayoutWorld exMentionFile) 9 "a").1.toBool &&
    isSchemaFile exMentionOut.file && noDefsCheck exMentionOut.file &&
    decide (exMentionOut.registry.names = ["p.R", "p.S", "p.E"]) &&
    decide (defs (events "" exMentionDoc) = ["p.R", "p.E"])) = true := by decide +kernel

attribute [local irreducible] exMentionOut exMentionDoc Builder.compileFile Builder.convert

/-- Non-vacuity: the hypotheses are met; the document defines two of the three types. -/
example : ∃ out j s, Converts Builder.new (exLayoutWorld exMentionFile) 9 out j ∧
    out.file = .schema s ∧ Coherent out.registry.schemas ∧
    out.registry.names = ["p.R", "p.S", "p.E"] ∧ defs (events "" j) = ["p.R", "p.E"] ∧
    Mentions out.registry.find? s "p.E" ∧ ¬ Mentions out.registry.find? s "p.S" := by
  have hk := exMention_checks
  simp only [Bool.and_eq_true, decide_eq_true_eq] at hk
  obtain ⟨⟨⟨⟨⟨k1, k2⟩, k3⟩, k4⟩, k5⟩, k6⟩ := hk
  have hconv : Converts Builder.new (exLayoutWorld exMentionFile) 9 exMentionOut exMentionDoc := by
    unfold exMentionOut exMentionDoc
    exact converts_of_ok k1 k2
  generalize exMentionOut = out at *
  generalize exMentionDoc = j at *
  obtain ⟨⟨text, name, dir, path, b', h⟩, _⟩ := hconv.compiled
  have hc := (coherent_of_namespaced h (by rw [k5]; decide) (noDefs_of_check k4)).1
  cases hf : out.file with
  | named ss => rw [hf] at k3; cases k3
  | protocol p => rw [hf] at k3; cases k3
  | schema s =>
    have hm := (C46_convert_partial hconv hf hc).2
    rw [k6] at hm
    exact ⟨out, j, s, hconv, hf, hc, k5, k6, (hm _).1 (by simp), fun h => by
      have := (hm _).2 h
      revert this
      decide⟩

end

end Avdl.Props
