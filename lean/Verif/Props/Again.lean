import Verif.Lemmas.SameOutput
import Verif.Spec.Again
import Verif.Props.Reimport
import Verif.Lemmas.AgainDocs
import Verif.Lemmas.AgainFirst
import Verif.Lemmas.AgainSecond
/-!
# C69: extracting from output files gives the same documents again
-/

namespace Avdl.Props
open Spec

/-! ## References in the same types, the other way round -/

theorem sameList_mem_left {ts ts' : List Schema} (h : SameList ts ts') {t : Schema} (ht : t ∈ ts) :
    ∃ t' ∈ ts', Same t t' := by
  induction ts generalizing ts' with
  | nil => cases ht
  | cons a l ih =>
    cases h with
    | cons h1 h2 =>
      rcases List.mem_cons.1 ht with rfl | ht
      · exact ⟨_, by simp, h1⟩
      · obtain ⟨t, h3, h4⟩ := ih h2 ht
        exact ⟨t, by simp [h3], h4⟩

theorem refs_same_left {s : Schema} {x : String} {sp : Option Span} (hr : RefersTo s x sp) :
    ∀ s', Same s s' → ∃ sp', RefersTo s' x sp' := by
  induction hr with
  | ref =>
    intro s h
    cases h with
    | ref hn _ =>
      rw [makeFullName_sameNs hn]
      exact ⟨_, .ref⟩
  | field => intro s h; cases h
  | items _ ih =>
    intro s h
    cases h with
    | array h _ =>
      obtain ⟨sp', h'⟩ := ih _ h
      exact ⟨sp', .items h'⟩
  | values _ ih =>
    intro s h
    cases h with
    | map h _ =>
      obtain ⟨sp', h'⟩ := ih _ h
      exact ⟨sp', .values h'⟩
  | branch ht _ ih =>
    intro s h
    cases h with
    | union h =>
      obtain ⟨t, h1, h2⟩ := sameList_mem_left h ht
      obtain ⟨sp', h'⟩ := ih _ h2
      exact ⟨sp', .branch h1 h'⟩

theorem matching_mem_left {α β : Type} {R : α → β → Prop} {l : List α} {l' : List β}
    (h : Matching R l l') {a : α} (ha : a ∈ l) : ∃ b ∈ l', R a b := by
  induction h with
  | nil => cases ha
  | cons h1 _ ih =>
    rcases List.mem_cons.1 ha with rfl | ha
    · exact ⟨_, by simp, h1⟩
    · obtain ⟨b, h3, h4⟩ := ih ha
      exact ⟨b, by simp [h3], h4⟩

theorem refs_sameDef_left {t t' : Schema} (h : SameDef t t') {x : String} {sp : Option Span}
    (hr : RefersTo t x sp) : ∃ sp', RefersTo t' x sp' := by
  cases h with
  | enum => cases hr
  | fixed => cases hr
  | record _ hf _ _ =>
    cases hr with
    | field hm hr =>
      obtain ⟨f, h1, h2⟩ := matching_mem_left hf hm
      obtain ⟨sp', h3⟩ := refs_same_left hr _ h2.type
      exact ⟨sp', .field h1 h3⟩

/-! ## Extraction, type by type -/

/-- The document written for a type. -/
def ExtractedAs (lk : Lookup) (n : Nat) (t : Schema) (d : String × Json) : Prop :=
  t.name? = some d.1 ∧ ∃ K, schemaToJson lk n t none [] = some (d.2, K)

theorem extract_go_iff {lk : Lookup} {n : Nat} {types : List Schema}
    (hn : ∀ t ∈ types, t.IsNamed) (docs : List (String × Json)) :
    extractSchemas.go n lk types = some docs ↔ Matching (ExtractedAs lk n) types docs := by
  induction types generalizing docs with
  | nil =>
    simp only [extractSchemas.go, Option.some.injEq]
    constructor
    · rintro rfl; exact .nil
    · intro h; cases h; rfl
  | cons t ts ih =>
    obtain ⟨nm, hnm, _⟩ := named_fullName (hn t (by simp))
    have ih := ih fun t ht => hn t (by simp [ht])
    simp only [extractSchemas.go, hnm]
    cases h1 : schemaToJson lk n t none [] with
    | none =>
      simp only
      constructor
      · intro h; cases h
      · intro h
        cases h with
        | cons h _ => obtain ⟨_, K, h⟩ := h; rw [h1] at h; cases h
    | some r =>
      obtain ⟨j, K⟩ := r
      simp only [Option.map_eq_some_iff]
      constructor
      · rintro ⟨rest, h2, rfl⟩
        exact .cons ⟨hnm, K, h1⟩ ((ih rest).1 h2)
      · intro h
        cases h with
        | @cons _ d _ rest hd hrest =>
          obtain ⟨h3, K', h4⟩ := hd
          rw [h1] at h4
          rw [hnm] at h3
          injection h4 with h4
          injection h4 with h4 _
          injection h3 with h3
          exact ⟨rest, (ih rest).2 hrest, by rw [h3, h4]⟩

theorem zip_matching {α β γ : Type} {R : α → β → Prop} {l : List (γ × α)} {l' : List β}
    (h : Matching R (l.map Prod.snd) l') {c : γ} {b : β} :
    (c, b) ∈ (l.map Prod.fst).zip l' → ∃ a, (c, a) ∈ l ∧ R a b := by
  induction l generalizing l' with
  | nil => simp
  | cons x l ih =>
    cases h with
    | cons h1 h2 =>
      intro hm
      simp only [List.map_cons, List.zip_cons_cons, List.mem_cons, Prod.mk.injEq] at hm
      rcases hm with ⟨rfl, rfl⟩ | hm
      · exact ⟨x.2, by simp, h1⟩
      · obtain ⟨a, h3, h4⟩ := ih h2 hm
        exact ⟨a, by simp [h3], h4⟩

theorem matching_zip {α β γ : Type} {R : α → β → Prop} {l : List (γ × α)} {l' : List β}
    (h : Matching R (l.map Prod.snd) l') {c : γ} {a : α} (hm : (c, a) ∈ l) :
    ∃ b, (c, b) ∈ (l.map Prod.fst).zip l' ∧ R a b := by
  induction l generalizing l' with
  | nil => cases hm
  | cons x l ih =>
    cases h with
    | cons h1 h2 =>
      rcases List.mem_cons.1 hm with rfl | hm
      · exact ⟨_, by simp, h1⟩
      · obtain ⟨b, h3, h4⟩ := ih h2 hm
        exact ⟨b, by simp [h3], h4⟩

theorem matching_exists {α β : Type} {R : α → β → Prop} {l : List α}
    (h : ∀ a ∈ l, ∃ b, R a b) : ∃ l', Matching R l l' := by
  induction l with
  | nil => exact ⟨[], .nil⟩
  | cons a l ih =>
    obtain ⟨b, hb⟩ := h a (by simp)
    obtain ⟨l', hl⟩ := ih fun a ha => h a (by simp [ha])
    exact ⟨b :: l', .cons hb hl⟩

theorem extractImpl_docs {fuel : Nat} {out : CompileOutput} {docs : List (String × Json)}
    {ws : List Report} (h : extractImpl fuel out = .ok ⟨docs, ws⟩) :
    extractSchemas fuel out.registry.schemas = some docs := by
  unfold extractImpl at h
  cases he : extractSchemas fuel out.registry.schemas with
  | none => rw [he] at h; cases h
  | some ss => rw [he] at h; injection h with h; injection h with h _; rw [h]

section
variable [CharTables] [FloatTables] [CaseTables]

theorem registry_fullName {b b' : Builder} {w : World} {fuel : Nat} {text name : String}
    {dir : Path} {path : Option Path} {out : CompileOutput}
    (h : b.compile w fuel text name dir path = (.ok out, b')) {t : Schema} {full : String}
    (hm : (full, t) ∈ out.registry) : t.fullName? = some full := by
  obtain ⟨_, _, _, es, _, _, _, _, _, h4, _⟩ := compile_ok h
  have hok := C08_registry_ok (es.flatMap Event.types)
  rw [← h4] at hok
  exact (hok _ hm).2

omit [CharTables] [FloatTables] [CaseTables] in
theorem coherent_same {out out' : CompileOutput} {P : String → Prop}
    (hs : SameTypesFor P out.registry out'.registry) (hc : Coherent out.registry.schemas) :
    Coherent out'.registry.schemas := by
  have hin : ∀ t' ∈ out'.registry.schemas, ∃ t ∈ out.registry.schemas, SameDef t t' := by
    intro t' ht'
    obtain ⟨kt, hkt, rfl⟩ := List.mem_map.1 ht'
    obtain ⟨t, h1, h2⟩ := hs.types kt.1 kt.2 hkt
    exact ⟨t, List.mem_map.2 ⟨_, h1, rfl⟩, h2⟩
  constructor
  · intro t' ht' full hf x sp hr hd
    obtain ⟨t, h1, h2⟩ := hin t' ht'
    obtain ⟨sp', h3⟩ := refs_sameDef h2 hr
    exact hc.separate t h1 full (by rw [sameDef_fullName h2]; exact hf) x sp' h3 hd
  · intro x hx
    obtain ⟨t', h1, h2⟩ := mem_fullNames.1 hx
    obtain ⟨t, h3, h4⟩ := hin t' h1
    exact hc.notPrimitive x (mem_fullNames.2 ⟨t, h3, by rw [sameDef_fullName h4]; exact h2⟩)

/-- Compilations with the same types have the same documents. -/
theorem documents_same {out out' : CompileOutput} {P : String → Prop}
    {b b₁ : Builder} {w : World} {fuel : Nat} {text name : String} {dir : Path} {path : Option Path}
    (h : b.compile w fuel text name dir path = (.ok out, b₁)) (hh : HoldsJson w)
    {b' b₁' : Builder} {w' : World} {fuel' : Nat} {text' name' : String} {dir' : Path}
    {path' : Option Path} (h' : b'.compile w' fuel' text' name' dir' path' = (.ok out', b₁'))
    (hs : SameTypesFor P out.registry out'.registry) (hc : Coherent out.registry.schemas)
    {n m : Nat} (hnm : n ≤ m) {docs : List (String × Json)}
    (hd : extractSchemas n out.registry.schemas = some docs) :
    ∃ docs', extractSchemas m out'.registry.schemas = some docs' ∧
      SameDocumentsFor P out docs out' docs' := by
  have hT := compile_tableOk h (d := none) hc (fun hne => absurd rfl hne)
  have hT' := compile_tableOk h' (d := none) (coherent_same hs hc) (fun hne => absurd rfl hne)
  have hk := compile_kept h hh
  have hnamed : ∀ t ∈ out.registry.schemas, t.IsNamed := fun t ht =>
    Schema.isNamed_of_flatDef (hT.flat t ht)
  have hnamed' : ∀ t ∈ out'.registry.schemas, t.IsNamed := fun t ht =>
    Schema.isNamed_of_flatDef (hT'.flat t ht)
  have hget : ∀ {x t}, (x, t) ∈ out.registry →
      (buildLookup out.registry.schemas none).get? x = some t := by
    intro x t hm
    exact hT.lookup_iff.2 ⟨List.mem_map.2 ⟨_, hm, rfl⟩, registry_fullName h hm⟩
  have hget' : ∀ {x t}, (x, t) ∈ out'.registry →
      (buildLookup out'.registry.schemas none).get? x = some t := by
    intro x t hm
    exact hT'.lookup_iff.2 ⟨List.mem_map.2 ⟨_, hm, rfl⟩, registry_fullName h' hm⟩
  have hR : ∀ x, x ∈ out'.registry.names → ∃ t t', (x, t) ∈ out.registry ∧ (x, t') ∈ out'.registry ∧
      SameDef t t' := by
    intro x hx
    obtain ⟨kt, hkt, rfl⟩ := List.mem_map.1 hx
    obtain ⟨t, h1, h2⟩ := hs.types kt.1 kt.2 hkt
    exact ⟨t, kt.2, h1, hkt, h2⟩
  have hl : SameLookup (· ∈ out'.registry.names) (buildLookup out.registry.schemas none)
      (buildLookup out'.registry.schemas none) := by
    refine ⟨?_, ?_, ?_⟩
    · intro x hx
      obtain ⟨t, t', h1, h2, h3⟩ := hR x hx
      exact ⟨t, t', hget h1, hget' h2, h3⟩
    · intro x t hx ht
      exact hk t (hT.lookup_iff.1 ht).1
    · intro x t y sp hx ht hr
      obtain ⟨t0, t', h1, h2, h3⟩ := hR x hx
      rw [hget h1] at ht
      injection ht with ht
      subst ht
      obtain ⟨sp', h4⟩ := refs_sameDef_left h3 hr
      exact (compile_refs h').1 t' (List.mem_map.2 ⟨_, h2, rfl⟩) y sp' h4
  have hser : ∀ x t t' , (x, t) ∈ out.registry → (x, t') ∈ out'.registry → ∀ k,
      schemaToJson (buildLookup out.registry.schemas none) k t none [] =
        schemaToJson (buildLookup out'.registry.schemas none) k t' none [] := by
    intro x t t' h1 h2 k
    have hx : x ∈ out'.registry.names := List.mem_map.2 ⟨_, h2, rfl⟩
    obtain ⟨t0, t0', h3, h4, h5⟩ := hR x hx
    have e1 : t0 = t := Option.some.inj ((hget h3).symm.trans (hget h1))
    have e2 : t0' = t' := Option.some.inj ((hget' h4).symm.trans (hget' h2))
    subst e1 e2
    exact (ser_sameTypes hT.lookupOk hl k).2 t0 t0' x none none [] h5 hx (hget h3)
      (fun _ => rfl) rfl
  have hname : ∀ x t t' , (x, t) ∈ out.registry → (x, t') ∈ out'.registry → t.name? = t'.name? := by
    intro x t t' h1 h2
    have hx : x ∈ out'.registry.names := List.mem_map.2 ⟨_, h2, rfl⟩
    obtain ⟨t0, t0', h3, h4, h5⟩ := hR x hx
    have e1 : t0 = t := Option.some.inj ((hget h3).symm.trans (hget h1))
    have e2 : t0' = t' := Option.some.inj ((hget' h4).symm.trans (hget' h2))
    subst e1 e2
    cases h5 <;> rfl
  have hM := (extract_go_iff hnamed docs).1 hd
  have hex : ∀ t' ∈ out'.registry.schemas, ∃ d,
      ExtractedAs (buildLookup out'.registry.schemas none) m t' d := by
    intro t' ht'
    obtain ⟨kt, hkt, rfl⟩ := List.mem_map.1 ht'
    obtain ⟨t, h1, _⟩ := hs.types kt.1 kt.2 hkt
    obtain ⟨d, _, d2, K, d3⟩ := matching_zip hM h1
    refine ⟨d, (hname _ _ _ h1 hkt).symm.trans d2, K, ?_⟩
    rw [← hser _ _ _ h1 hkt]
    exact ser_mono _ hnm d3
  obtain ⟨docs', hM'⟩ := matching_exists hex
  refine ⟨docs', (extract_go_iff hnamed' docs').2 hM', fun full doc => ⟨fun hz => ?_, ?_⟩⟩
  · obtain ⟨t', h2, h3, K, h4⟩ := zip_matching hM' hz
    refine ⟨(hs.names full).1 (List.mem_map.2 ⟨_, h2, rfl⟩), ?_⟩
    obtain ⟨t, h1, _⟩ := hs.types full t' h2
    obtain ⟨d, d1, d2, K', d3⟩ := matching_zip hM h1
    have e1 := ser_mono _ hnm d3
    rw [hser _ _ _ h1 h2, h4] at e1
    rw [hname _ _ _ h1 h2, h3] at d2
    injection e1 with e1
    injection e1 with e1 _
    injection d2 with d2
    have : doc = d := Prod.ext d2 e1
    rw [this]; exact d1
  · rintro ⟨hp, hz⟩
    obtain ⟨t, h1, d2, K, d3⟩ := zip_matching hM hz
    obtain ⟨_, t', _, h2, _⟩ := hR full ((hs.names full).2 hp)
    obtain ⟨d, d1, h3, K', h4⟩ := matching_zip hM' h2
    have e1 := ser_mono _ hnm d3
    rw [hser _ _ _ h1 h2, h4] at e1
    rw [hname _ _ _ h1 h2, h3] at d2
    injection e1 with e1
    injection e1 with e1 _
    injection d2 with d2
    have : doc = d := Prod.ext d2.symm e1.symm
    rw [this]; exact d1

/-- What is extracted when a file is compiled that only imports an output file. -/
theorem extract_again {out out' : CompileOutput} {P : String → Prop}
    {b b₁ : Builder} {w : World} {fuel : Nat} {text name : String} {dir : Path} {path : Option Path}
    (h : b.compile w fuel text name dir path = (.ok out, b₁)) (hh : HoldsJson w)
    {b' b₁' : Builder} {w' : World} {fuel' : Nat} {text' name' : String} {dir' : Path}
    {path' : Option Path} (h' : b'.compile w' fuel' text' name' dir' path' = (.ok out', b₁'))
    (hs : SameTypesFor P out.registry out'.registry) (hc : Coherent out.registry.schemas)
    (hnm : fuel ≤ fuel') {docs : List (String × Json)}
    (hd : extractSchemas fuel out.registry.schemas = some docs) :
    ∃ docs', extractFrom fuel' (b'.compile w' fuel' text' name' dir' path') =
      (.ok ⟨docs', out'.warnings⟩, b₁') ∧ SameDocumentsFor P out docs out' docs' := by
  obtain ⟨docs', e1, e2⟩ := documents_same h hh h' hs hc hnm hd
  refine ⟨docs', ?_, e2⟩
  rw [h']
  simp only [extractFrom, extractImpl, e1]

/-- **C69 for extracted schemas (partial).** When one of the extracted documents has been written to
a file, the documents extracted from a protocol that only imports this file are the documents of the
type and of those it mentions, exactly as they were extracted at first.

Full property: for all compilations.  (Conditions as in `C45_extract_partial`.) -/
theorem C69_extract_partial [JsonFloats] {b : Builder} {w : World} {fuel : Nat}
    {out : CompileOutput} {docs : List (String × Json)} (h : Extracts b w fuel out docs)
    (hw : w.parseJson = parseJsonWithComments) (hc : Coherent out.registry.schemas)
    (hf : ∀ t ∈ out.registry.schemas, Faithful t)
    {kt : String × Schema} {j : Json} (hkt : (kt, j) ∈ out.registry.zip (docs.map Prod.snd))
    (hfl : FloatsSurvive j) (hn : nesting j ≤ 127)
    {b₂ : Builder} {w₂ : World} {n : Nat} {text name file : String} {dir f : Path}
    {path : Option Path} (hw₂ : w₂.parseJson = parseJsonWithComments) (hr : Contains w₂ f j)
    (hi : OnlyImports w₂ text name .schema file) (hto : ImportsTo w₂ b₂.importDirs dir file f)
    (hnew : f ∉ path.toList) (hfuel : fuel ≤ n + 1) :
    ∃ out' res b₂', b₂.compile w₂ (n + 1) text name dir path = (.ok out', b₂') ∧
      extractFrom (n + 1) (b₂.compile w₂ (n + 1) text name dir path) = (.ok res, b₂') ∧
      SameDocumentsFor (fun x => x = kt.1 ∨ Mentions out.registry.find? kt.2 x) out docs
        out' res.schemas := by
  obtain ⟨out', b₂', h1, h2⟩ := C45_extract_partial h hw hc hf hkt hfl hn (n := n) hw₂ hr hi hto hnew
  obtain ⟨⟨text0, name0, dir0, path0, b0, h0⟩, he⟩ := h.compiled
  obtain ⟨docs', e1, e2⟩ := extract_again h0 (holdsJson_of_parse hw) h1 h2 hc hfuel he
  exact ⟨out', _, b₂', h1, e1, e2⟩

/-- **C69 for schema files (partial).** The same for the document of a compiled schema file: the
documents extracted from a protocol that only imports it are those extracted from the schema file
itself, for the types the schema mentions. -/
theorem C69_schema_partial [JsonFloats] {b : Builder} {w : World} {fuel : Nat}
    {out : CompileOutput} {j : Json} {s : Schema} (h : Converts b w fuel out j)
    (hw : w.parseJson = parseJsonWithComments) (hs : out.file = .schema s)
    (hc : Coherent out.registry.schemas) (hf : ∀ t ∈ out.registry.schemas, Faithful t)
    (hfs : Faithful s) (hfl : FloatsSurvive j) (hn : nesting j ≤ 127)
    {docs : List (String × Json)} (hd : extractImpl fuel out = .ok ⟨docs, out.warnings⟩)
    {b₂ : Builder} {w₂ : World} {n : Nat} {text name file : String} {dir f : Path}
    {path : Option Path} (hw₂ : w₂.parseJson = parseJsonWithComments) (hr : Contains w₂ f j)
    (hi : OnlyImports w₂ text name .schema file) (hto : ImportsTo w₂ b₂.importDirs dir file f)
    (hnew : f ∉ path.toList) (hfuel : fuel ≤ n + 1) :
    ∃ out' res b₂', b₂.compile w₂ (n + 1) text name dir path = (.ok out', b₂') ∧
      extractFrom (n + 1) (b₂.compile w₂ (n + 1) text name dir path) = (.ok res, b₂') ∧
      SameDocumentsFor (Mentions out.registry.find? s) out docs out' res.schemas := by
  obtain ⟨out', b₂', h1, h2⟩ :=
    C45_schema_partial h hw hs hc hf hfs hfl hn (n := n) hw₂ hr hi hto hnew
  obtain ⟨⟨text0, name0, dir0, path0, b0, h0⟩, _⟩ := h.compiled
  obtain ⟨docs', e1, e2⟩ := extract_again h0 (holdsJson_of_parse hw) h1 h2 hc hfuel
    (extractImpl_docs hd)
  exact ⟨out', _, b₂', h1, e1, e2⟩

/-- **C69 for protocols (partial).** When the document of a compiled protocol has been written to a
file, the documents extracted from a protocol that only imports this file are exactly those
extracted from the protocol itself. -/
theorem C69_protocol_partial [JsonFloats] {b : Builder} {w : World} {fuel : Nat}
    {out : CompileOutput} {j : Json} {p : Protocol} (h : Converts b w fuel out j)
    (hw : w.parseJson = parseJsonWithComments) (hp : out.file = .protocol p)
    (hc : CoherentProtocol p) (hf : ∀ t ∈ p.types, Faithful t)
    (hm : ∀ nm ∈ p.messages, FaithfulMessage nm.2) (hfl : FloatsSurvive j) (hn : nesting j ≤ 127)
    {docs : List (String × Json)} (hd : extractImpl fuel out = .ok ⟨docs, out.warnings⟩)
    {b₂ : Builder} {w₂ : World} {n : Nat} {text name file : String} {dir f : Path}
    {path : Option Path} (hw₂ : w₂.parseJson = parseJsonWithComments) (hr : Contains w₂ f j)
    (hi : OnlyImports w₂ text name .protocol file) (hto : ImportsTo w₂ b₂.importDirs dir file f)
    (hnew : f ∉ path.toList) (hfuel : fuel ≤ n + 1) :
    ∃ out' res b₂', b₂.compile w₂ (n + 1) text name dir path = (.ok out', b₂') ∧
      extractFrom (n + 1) (b₂.compile w₂ (n + 1) text name dir path) = (.ok res, b₂') ∧
      SameDocumentsFor (· ∈ out.registry.names) out docs out' res.schemas := by
  obtain ⟨out', p', b₂', h1, _, h2, _⟩ :=
    C45_protocol_partial h hw hp hc hf hm hfl hn (n := n) hw₂ hr hi hto hnew
  obtain ⟨⟨text0, name0, dir0, path0, b0, h0⟩, _⟩ := h.compiled
  have hreg : p.types = out.registry.schemas := (compile_protocol h0 hp).1
  have hs : SameTypesFor (· ∈ out.registry.names) out.registry out'.registry :=
    ⟨h2.names.nodup_iff.2 (by rw [← fullNames_registry h0]; exact compile_distinct h0),
      fun x => h2.names.mem_iff, h2.types⟩
  obtain ⟨docs', e1, e2⟩ := extract_again h0 (holdsJson_of_parse hw) h1 hs (hreg ▸ hc.types) hfuel
    (extractImpl_docs hd)
  exact ⟨out', _, b₂', h1, e1, e2⟩

end

/-! ## An example -/

section
attribute [local instance] asciiTables exFloats exCases exJsonFloats

attribute [local irreducible] exCompiled exWritten Builder.compileFile Builder.convert
  Builder.compile

/-- Non-vacuity: the documents of an enum, a recursive record and an error are extracted again from
the written protocol. -/
example : ∃ out res b', extractFrom 9 (Builder.new.compile
      (exReimportWorld (exReimport (exWritten exOriginal))) 9
      "protocol Q{import protocol \"a.avpr\";}" "b" "" (some "b")) = (.ok res, b') ∧
    exDocs.map Prod.fst = ["E", "R", "F"] ∧
    SameDocumentsFor (· ∈ (exCompiled exOriginal).registry.names) (exCompiled exOriginal) exDocs
      out res.schemas := by
  have hk := exOriginal_checks
  simp only [exChecks, Bool.and_eq_true, decide_eq_true_eq] at hk
  obtain ⟨⟨⟨⟨⟨⟨k1, k2⟩, k3⟩, k4⟩, k5⟩, k6⟩, k7⟩ := hk
  have hd0 := exDocs_checks
  simp only [Bool.and_eq_true, beq_iff_eq] at hd0
  obtain ⟨hd1, hd2⟩ := hd0
  have hd : extractImpl 9 (exCompiled exOriginal) = .ok ⟨exDocs, (exCompiled exOriginal).warnings⟩ := by
    unfold exDocs
    unfold extractImpl at hd1 ⊢
    cases he : extractSchemas 9 (exCompiled exOriginal).registry.schemas with
    | none => rw [he] at hd1; cases hd1
    | some ss => rfl
  have hconv : Converts Builder.new (exReimportWorld exOriginal) 9
      (exCompiled exOriginal) (exWritten exOriginal) := by
    unfold exCompiled exWritten
    exact converts_of_ok k1 k2
  obtain ⟨⟨text, name, dir, path, b', h⟩, _⟩ := hconv.compiled
  have hc := (coherent_of_namespaced h k5 (noDefs_of_check k4)).2
  generalize exDocs = docs at *
  generalize exCompiled exOriginal = out at *
  generalize exWritten exOriginal = j at *
  unfold CoherentOutput at hc
  cases hp : out.file with
  | named ss => rw [hp] at k3; cases k3
  | schema s => rw [hp] at k3; cases k3
  | protocol p =>
    rw [hp] at hc k3
    simp only [protocolCheck, Bool.and_eq_true, List.all_eq_true] at k3
    obtain ⟨out', res, b', h1, h2, h3⟩ := C69_protocol_partial hconv rfl hp hc
      (fun t ht => faithful_of_check t _ (k3.1 t ht))
      (fun nm hnm => faithfulMessage_of_check (k3.2 nm hnm)) (floatsSurvive_of_none _ k6) k7 hd
      (b₂ := Builder.new) (w₂ := exReimportWorld (exReimport j)) (n := 8)
      (text := "protocol Q{import protocol \"a.avpr\";}") (name := "b") (file := "a.avpr")
      (dir := "") (f := "a.avpr") (path := some "b") rfl
      (.inr (by show exReimport j "a.avpr" = _; unfold exReimport; rw [if_pos rfl]))
      (exImport_only _)
      ⟨"a.avpr", ⟨0, "", rfl, rfl, by
        show (exReimport j "a.avpr").isSome = true
        unfold exReimport; rw [if_pos rfl]; rfl, by
        intro i d hi; cases hi⟩, rfl⟩ (by decide) (by decide)
    exact ⟨out', res, b', h2, hd2, h3⟩

end

/-! ## Where more would not hold -/

section
attribute [local instance] asciiTables exFloats exCases exJsonFloats

/-- **Finding.** The document of a protocol is not reproduced by a protocol of the same name that
only imports it: of two records that refer to each other, the other one is now defined first.  Doing
the same with the new document leads back to the old one. -/
theorem C69_fails_protocol_document : ∃ out j out' j' out'',
    Converts Builder.new (exReimportWorld exMutual) 9 out j ∧
    Contains (exReimportWorld (exAgain j)) "a.avpr" j ∧
    Converts Builder.new (exReimportWorld (exAgain j)) 9 out' j' ∧ j' ≠ j ∧
    Contains (exReimportWorld (exAgain j')) "a.avpr" j' ∧
    Converts Builder.new (exReimportWorld (exAgain j')) 9 out'' j := by
  have hk1 := exMutual_checks
  have hk2 := exAgain_checks
  have hk3 := exAgain_checks'
  simp only [Bool.and_eq_true, decide_eq_true_eq] at hk1 hk2 hk3
  have hcon : ∀ j, Contains (exReimportWorld (exAgain j)) "a.avpr" j := fun j => .inr (by
    show exAgain j "a.avpr" = _
    unfold exAgain; rw [if_pos rfl])
  have c1 := converts_of_ok hk1.1.1 hk1.1.2
  have c2 := converts_of_ok hk2.1.1 hk2.1.2
  have c3 := converts_of_ok hk3.1.1 hk3.1.2
  have e1 := hk1.2
  have e2 := hk2.2
  have e3 := hk3.2
  unfold exWritten at e1 e2 e3
  rw [e1] at c1
  rw [e2] at c2
  rw [e3] at c3
  exact ⟨_, exFirst, _, exSecond, _, c1, hcon _, c2, by decide, hcon _, c3⟩

end

end Avdl.Props
