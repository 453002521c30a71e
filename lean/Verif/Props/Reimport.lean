import Verif.Lemmas.Reimport
import Verif.Props.Mentioned
import Verif.Props.RoundTrip
import Verif.Props.Layout
/-!
# C45: output files can be imported again, with the same types and messages
-/

namespace Avdl.Props
open Spec

/-! ## References in the same types -/

theorem sameList_mem {ts ts' : List Schema} (h : SameList ts ts') {t' : Schema} (ht : t' ∈ ts') :
    ∃ t ∈ ts, Same t t' := by
  induction ts' generalizing ts with
  | nil => cases ht
  | cons a l ih =>
    cases h with
    | cons h1 h2 =>
      rcases List.mem_cons.1 ht with rfl | ht
      · exact ⟨_, by simp, h1⟩
      · obtain ⟨t, h3, h4⟩ := ih h2 ht
        exact ⟨t, by simp [h3], h4⟩

theorem refs_same {s' : Schema} {x : String} {sp : Option Span} (hr : RefersTo s' x sp) :
    ∀ s, Same s s' → ∃ sp', RefersTo s x sp' := by
  induction hr with
  | ref =>
    intro s h
    cases h with
    | ref hn _ =>
      rw [← makeFullName_sameNs hn]
      exact ⟨_, .ref⟩
  | field => intro s h; cases h
  | items _ ih =>
    intro s h
    cases h with
    | array h _ =>
      obtain ⟨sp', h'⟩ := ih _ h
      exact ⟨sp', .items h'⟩
  | values _ ih =>
    intro s h
    cases h with
    | map h _ =>
      obtain ⟨sp', h'⟩ := ih _ h
      exact ⟨sp', .values h'⟩
  | branch ht _ ih =>
    intro s h
    cases h with
    | union h =>
      obtain ⟨t, h1, h2⟩ := sameList_mem h ht
      obtain ⟨sp', h'⟩ := ih _ h2
      exact ⟨sp', .branch h1 h'⟩

theorem matching_mem {α β : Type} {R : α → β → Prop} {l : List α} {l' : List β}
    (h : Matching R l l') {b : β} (hb : b ∈ l') : ∃ a ∈ l, R a b := by
  induction h with
  | nil => cases hb
  | cons h1 _ ih =>
    rcases List.mem_cons.1 hb with rfl | hb
    · exact ⟨_, by simp, h1⟩
    · obtain ⟨a, h3, h4⟩ := ih hb
      exact ⟨a, by simp [h3], h4⟩

theorem refs_sameDef {t t' : Schema} (h : SameDef t t') {x : String} {sp : Option Span}
    (hr : RefersTo t' x sp) : ∃ sp', RefersTo t x sp' := by
  cases h with
  | enum => cases hr
  | fixed => cases hr
  | record _ hf _ _ =>
    cases hr with
    | field hm hr =>
      obtain ⟨f, h1, h2⟩ := matching_mem hf hm
      obtain ⟨sp', h3⟩ := refs_same hr _ h2.type
      exact ⟨sp', .field h1 h3⟩

theorem fileRefs_same {p p' : Protocol} (h : SameMessages p.messages p'.messages) {x : String}
    (hr : FileRefersTo (.protocol p') x) : FileRefersTo (.protocol p) x := by
  cases hr with
  | response hm hr =>
    obtain ⟨m, h1, h2⟩ := h.messages _ _ hm
    obtain ⟨sp', h3⟩ := refs_same hr _ h2.response
    exact .response h1 h3
  | parameter hm hf hr =>
    obtain ⟨m, h1, h2⟩ := h.messages _ _ hm
    obtain ⟨f, h4, h5⟩ := matching_mem h2.request hf
    obtain ⟨sp', h3⟩ := refs_same hr _ h5.type
    exact .parameter h1 h4 h3
  | error hm he hs hr =>
    obtain ⟨m, h1, h2⟩ := h.messages _ _ hm
    rcases h2.errors with ⟨_, h4⟩ | ⟨es, es', h4, h5, h6⟩
    · rw [he] at h4; cases h4
    · rw [he] at h5
      injection h5 with h5
      subst h5
      obtain ⟨s, h7, h8⟩ := sameList_mem h6 hs
      obtain ⟨sp', h3⟩ := refs_same hr _ h8
      exact .error h1 h4 h7 h3

/-! ## Compiling a file with nothing but an import -/

section
variable [CharTables] [FloatTables] [CaseTables]

omit [CharTables] [FloatTables] [CaseTables] in
theorem extendMessages_nodup {ms : List (String × Message)} (h : (ms.map Prod.fst).Nodup) :
    extendMessages [] ms = ms := by
  have key : ∀ (new old : List (String × Message)), ((old ++ new).map Prod.fst).Nodup →
      extendMessages old new = old ++ new := by
    intro new
    induction new with
    | nil => intro old _; simp [extendMessages]
    | cons a l ih =>
      intro old h
      have hi : insertMessage old a.1 a.2 = old ++ [a] := by
        unfold insertMessage
        congr 1
        rw [List.filter_eq_self]
        intro kv hkv
        simp only [List.map_append, List.map_cons, List.nodup_append] at h
        have := h.2.2 kv.1 (List.mem_map_of_mem hkv) a.1 (by simp)
        simpa using this
      unfold extendMessages
      rw [List.foldl_cons, hi]
      have := ih (old ++ [a]) (by simpa using h)
      unfold extendMessages at this
      rw [this]; simp
  exact key ms [] (by simpa using h)

theorem resolve_json {w : World} {dirs : List Path} {nested : List DeclItem → Path → Ctx → Outcome Unit}
    {dir : Path} {i : ImportEntry} {f : Path} {j : Json} {r : Registry}
    {ms : List (String × Message)} {c : Ctx} (h2 : ImportsTo w dirs dir i.path f)
    (h3 : f ∉ c.imported) (h4 : readJson w f = .ok j) (hc : c.registry = []) (hm : c.messages = [])
    (h5 : (i.kind = .protocol ∧ importProtocol j [] = .ok (r, ms)) ∨
      (i.kind = .schema ∧ importSchema j [] = .ok r ∧ ms = []))
    (h7 : (ms.map Prod.fst).Nodup) :
    ∃ c', resolveSingleImport w dirs nested i dir c = (.ok (), c') ∧ c'.registry = r ∧
      c'.messages = ms := by
  unfold resolveSingleImport
  rw [resolveImport_ok.2 h2]
  have hc' : c.imported.contains f = false := by simpa using h3
  simp only [hc', Bool.false_eq_true, if_false]
  rcases h5 with ⟨hk, hi⟩ | ⟨hk, hi, rfl⟩
  · simp only [hk, h4, hc, hi, hm, extendMessages_nodup h7]
    exact ⟨_, rfl, rfl, rfl⟩
  · simp only [hk, h4, hc, hi]
    exact ⟨_, rfl, rfl, hm⟩

theorem compile_import {b : Builder} {w : World} {n : Nat} {text name : String} {dir : Path}
    {path : Option Path} {q : Protocol} {i : ImportEntry} {ws : List Warning} {f : Path} {j : Json}
    {r : Registry} {ms : List (String × Message)}
    (h1 : parseIdl w text name = .ok (.protocol q, [.import_ i], ws))
    (h2 : ImportsTo w b.importDirs dir i.path f) (h3 : f ∉ path.toList)
    (h4 : readJson w f = .ok j)
    (h5 : (i.kind = .protocol ∧ importProtocol j [] = .ok (r, ms)) ∨
      (i.kind = .schema ∧ importSchema j [] = .ok r ∧ ms = []))
    (h6 : q.messages = []) (h7 : (ms.map Prod.fst).Nodup)
    (hrefs : ∀ x, ((∃ kt ∈ r, ∃ sp, RefersTo kt.2 x sp) ∨
      FileRefersTo (.protocol { q with types := r.schemas, messages := ms }) x) → x ∈ r.names) :
    ∃ out' b', b.compile w (n + 1) text name dir path = (.ok out', b') ∧ out'.registry = r ∧
      out'.file = .protocol { q with types := r.schemas, messages := ms } := by
  have hp : ∃ c', parseAndResolve w b.importDirs (n + 1) text name dir path Ctx.new =
      (.ok (.protocol { q with types := r.schemas, messages := ms }), c') ∧ c'.registry = r := by
    unfold parseAndResolve
    rw [h1]
    simp only [processDecls, processItems]
    obtain ⟨c', e1, e2, e3⟩ := resolve_json (nested := processDecls w b.importDirs (n + 1) n)
      (c := { Ctx.new with warnings := Ctx.new.warnings ++ ws.map fun x => ⟨x, none⟩,
                           imported := path.toList ++ Ctx.new.imported })
      h2 (by simpa [Ctx.new] using h3) h4 rfl rfl h5 h7
    rw [e1]
    refine ⟨c', ?_, e2⟩
    simp only [finishFile, e2, e3, h6]
    rfl
  obtain ⟨c', hp, hcr⟩ := hp
  obtain ⟨_, hu, hv⟩ := C10_undefined_exactly
    (.protocol { q with types := r.schemas, messages := ms }) r
  have hnil : undefinedNames (.protocol { q with types := r.schemas, messages := ms }) r = [] := by
    have : (undefinedNames (.protocol { q with types := r.schemas, messages := ms }) r).map
        Prod.fst = [] := by
      rw [List.eq_nil_iff_forall_not_mem]
      intro x hx
      obtain ⟨h8, h9⟩ := (hu x).1 hx
      exact h9 (hrefs x h8)
    simpa using this
  rw [if_pos hnil] at hv
  refine ⟨⟨.protocol { q with types := r.schemas, messages := ms }, r, c'.warnings⟩,
    { b with accumulated := [] }, ?_, rfl, rfl⟩
  unfold Builder.compile
  simp only [hp, hcr, hv]

omit [CharTables] [FloatTables] [CaseTables] in
theorem readJson_contains [JsonFloats] {w : World} {f : Path} {j : Json}
    (hw : w.parseJson = parseJsonWithComments) (hr : Contains w f j) (hs : Held j)
    (hf : FloatsSurvive j) (hn : nesting j ≤ 127) : readJson w f = .ok j := by
  obtain ⟨h1, h2⟩ := C43_read_back_partial j (storable_of_held hs hf) hn
  unfold readJson
  rcases hr with hr | hr
  · rw [hr, hw]; simp only [h1]
  · rw [hr, hw]; simp only [h2]

omit [CharTables] [FloatTables] [CaseTables] in
theorem holdsJson_of_parse [JsonFloats] {w : World} (hw : w.parseJson = parseJsonWithComments) :
    HoldsJson w := by
  intro t j h
  rw [hw] at h
  exact parseJsonWithComments_held h

theorem compile_acceptable {b b' : Builder} {w : World} {fuel : Nat} {text name : String}
    {dir : Path} {path : Option Path} {out : CompileOutput}
    (h : b.compile w fuel text name dir path = (.ok out, b')) :
    ∀ t ∈ out.registry.schemas, Acceptable t := by
  obtain ⟨_, _, _, es, _, _, _, _, _, h4, _⟩ := compile_ok h
  rw [h4]
  have key : ∀ (hist : List Schema) (r : Registry), (∀ kt ∈ r, Acceptable kt.2) →
      ∀ kt ∈ hist.foldl attempt r, Acceptable kt.2 := by
    intro hist
    induction hist with
    | nil => exact fun r h => h
    | cons s t ih =>
      intro r hr
      refine ih _ ?_
      rcases C08_attempt r s with ⟨full, h1, _, _, h2⟩ | ⟨_, _, h2⟩
      · rw [h2]
        intro kt hkt
        rcases List.mem_append.1 hkt with hkt | hkt
        · exact hr kt hkt
        · simp only [List.mem_singleton] at hkt
          rw [hkt]; exact h1
      · rw [h2]; exact hr
  intro t ht
  obtain ⟨kt, hkt, rfl⟩ := List.mem_map.1 ht
  exact key _ [] (by simp) kt hkt

theorem registry_mem {b b' : Builder} {w : World} {fuel : Nat} {text name : String}
    {dir : Path} {path : Option Path} {out : CompileOutput}
    (h : b.compile w fuel text name dir path = (.ok out, b')) {t : Schema} {full : String}
    (ht : t ∈ out.registry.schemas) (hf : t.fullName? = some full) : (full, t) ∈ out.registry := by
  obtain ⟨_, _, _, es, _, _, _, _, _, h4, _⟩ := compile_ok h
  have hok := C08_registry_ok (es.flatMap Event.types)
  rw [← h4] at hok
  obtain ⟨kt, hkt, rfl⟩ := List.mem_map.1 ht
  have := (hok kt hkt).2
  rw [hf] at this
  injection this with this
  rw [this]; exact hkt

/-- **C45 for protocols (partial).** When a compiled protocol has been written to a file, a protocol
that only imports this file compiles, and has the same types and the same messages.

Full property: for all compiled protocols.  The conditions are: namespaces are not mixed (`C03`,
`C04`); no annotated primitive that names a logical type, no alias `.X` (`Faithful`; where it fails,
types change: `C45_fails_logical_type`); floating point numbers survive; and the document has at
most 127 levels of nesting (beyond, it cannot be read: `C43_fails_deep`). -/
theorem C45_protocol_partial [JsonFloats] {b : Builder} {w : World} {fuel : Nat}
    {out : CompileOutput} {j : Json} {p : Protocol} (h : Converts b w fuel out j)
    (hw : w.parseJson = parseJsonWithComments) (hp : out.file = .protocol p)
    (hc : CoherentProtocol p) (hf : ∀ t ∈ p.types, Faithful t)
    (hm : ∀ nm ∈ p.messages, FaithfulMessage nm.2) (hfl : FloatsSurvive j) (hn : nesting j ≤ 127)
    {b₂ : Builder} {w₂ : World} {n : Nat} {text name file : String} {dir f : Path}
    {path : Option Path} (hw₂ : w₂.parseJson = parseJsonWithComments) (hr : Contains w₂ f j)
    (hi : OnlyImports w₂ text name .protocol file) (hto : ImportsTo w₂ b₂.importDirs dir file f)
    (hnew : f ∉ path.toList) :
    ∃ out' p' b₂', b₂.compile w₂ (n + 1) text name dir path = (.ok out', b₂') ∧
      out'.file = .protocol p' ∧ SameTypes out.registry out'.registry ∧
      SameMessages p.messages p'.messages := by
  obtain ⟨⟨text0, name0, dir0, path0, b0, h⟩, hj⟩ := h.compiled
  unfold outputJson at hj
  rw [hp] at hj
  simp only at hj
  have hh := holdsJson_of_parse hw
  have hP := compile_protocolOk h hp hc
  obtain ⟨ht, _, _⟩ := compile_protocol h hp
  have hk := compile_kept h hh
  obtain ⟨k1, k2, k3⟩ := compile_protocol_kept h hh hp
  rw [← ht] at hk
  have hflat : ∀ t ∈ p.types, t.flatDef = true := hP.table.flat
  have hheld := protocolToJson_held hflat hk k1 k2 hj
  have hread := readJson_contains hw₂ hr hheld hfl hn
  have hacc := compile_acceptable h
  rw [← ht] at hacc
  obtain ⟨r, ms, a1, a2, a3, a4, a5⟩ := C23_protocol_partial p hP
    (fun t h => ⟨inOk_of_kept (hk t h) (hf t h), hacc t h⟩)
    (fun nm h => inMessage_of_kept (k2 nm h) (hm nm h)) k3 fuel j hj
  obtain ⟨q, i, ws, i1, i2, i3, i4⟩ := hi
  subst i3
  have hnames : r.names.Perm out.registry.names := by
    rw [← fullNames_registry h, ← ht]; exact a2
  have hsm : SameMessages p.messages ms := ⟨a4, a5⟩
  have hfull := fullNames_registry h
  have hst : SameTypes out.registry r := by
    refine ⟨hnames, fun full t' hm => ?_⟩
    obtain ⟨t, t1, t2, t3⟩ := a3 full t' hm
    rw [ht] at t1
    exact ⟨t, registry_mem h t1 t2, t3⟩
  have hrefs := compile_refs h
  obtain ⟨out', b', o1, o2, o3⟩ := compile_import (n := n) (ms := ms) i1 hto hnew hread
    (.inl ⟨i2, a1⟩) i4 (a4.nodup_iff.2 k3) (by
      intro x hx
      rw [hnames.mem_iff]
      rcases hx with ⟨kt, hkt, sp, hx⟩ | hx
      · obtain ⟨t, t1, t2⟩ := hst.types kt.1 kt.2 hkt
        obtain ⟨sp', hx'⟩ := refs_sameDef t2 hx
        exact hrefs.1 t (List.mem_map.2 ⟨_, t1, rfl⟩) x sp' hx'
      · have := fileRefs_same (p := p) hsm hx
        rw [← hp] at this
        exact hrefs.2 x this)
  exact ⟨out', _, b', o1, o3, o2 ▸ hst, hsm⟩


/-- Importing the document of a schema. -/
theorem reimport_schema [JsonFloats] {b b' : Builder} {w : World} {fuel : Nat} {text0 name0 : String}
    {dir0 : Path} {path0 : Option Path} {out : CompileOutput}
    (h : b.compile w fuel text0 name0 dir0 path0 = (.ok out, b'))
    (hc : Coherent out.registry.schemas) {j : Json} {s' : Schema} {K : Known}
    {own : Option String} {R : String → Prop}
    (hj : jsonToSchema none j = .ok s')
    (hb : Brought (buildLookup out.registry.schemas none) (definitions s') [] K) (hK : K.Nodup)
    (ha : Adds (buildLookup out.registry.schemas none) own R [] K)
    (hheld : Held j) (hfl : FloatsSurvive j) (hn : nesting j ≤ 127)
    {b₂ : Builder} {w₂ : World} {n : Nat} {text name file : String} {dir f : Path}
    {path : Option Path} (hw₂ : w₂.parseJson = parseJsonWithComments) (hr : Contains w₂ f j)
    (hi : OnlyImports w₂ text name .schema file) (hto : ImportsTo w₂ b₂.importDirs dir file f)
    (hnew : f ∉ path.toList) :
    ∃ out' b₂', b₂.compile w₂ (n + 1) text name dir path = (.ok out', b₂') ∧
      SameTypesFor (· ∈ K) out.registry out'.registry := by
  have hT := compile_tableOk h (d := none) hc (fun hne => absurd rfl hne)
  have hread := readJson_contains hw₂ hr hheld hfl hn
  obtain ⟨r, r1, r2, r3⟩ := register_brought hb hK
    (acceptable_lookup hT (compile_acceptable h))
  have himp : importSchema j [] = .ok r := by
    unfold importSchema
    rw [hj]
    simp only [flattenAndRegister_defs, r1]
  obtain ⟨q, i, ws, i1, i2, i3, i4⟩ := hi
  subst i3
  have hst : SameTypesFor (· ∈ K) out.registry r := by
    refine ⟨r2.nodup_iff.2 hK, fun x => r2.mem_iff, fun full t' hm => ?_⟩
    obtain ⟨t, t1, t2⟩ := r3 full t' hm
    obtain ⟨t3, t4⟩ := hT.lookup_iff.1 t1
    exact ⟨t, registry_mem h t3 t4, t2⟩
  have hrefs := compile_refs h
  obtain ⟨out', b', o1, o2, o3⟩ := compile_import (n := n) (ms := []) i1 hto hnew hread
    (.inr ⟨i2, himp, rfl⟩) i4 (by simp) (by
      intro x hx
      rcases hx with ⟨kt, hkt, sp, hx⟩ | hx
      · obtain ⟨t, t1, t2⟩ := r3 kt.1 kt.2 hkt
        obtain ⟨sp', hx'⟩ := refs_sameDef t2 hx
        obtain ⟨t3, _⟩ := hT.lookup_iff.1 t1
        have hmem := hrefs.1 t t3 x sp' hx'
        rw [← fullNames_registry h] at hmem
        obtain ⟨t5, t6, t7⟩ := mem_fullNames.1 hmem
        have hk : kt.1 ∈ K := r2.mem_iff.1 (List.mem_map_of_mem hkt)
        rcases ha.closed _ hk with h0 | ⟨t8, t9, t10⟩
        · cases h0
        · rw [t1] at t9
          injection t9 with t9
          subst t9
          exact r2.mem_iff.2 (t10 x ⟨sp', hx'⟩ t5 (hT.lookup_iff.2 ⟨t6, t7⟩))
      · cases hx with
        | response hm => cases hm
        | parameter hm => cases hm
        | error hm => cases hm)
  exact ⟨out', b', o1, o2 ▸ hst⟩

/-- **C45 for schema files (partial).** When the document of a compiled schema file has been
written to a file, a protocol that only imports this file compiles, and has exactly the types the
schema mentions, with the same definitions.  (Conditions as in `C45_protocol_partial`.) -/
theorem C45_schema_partial [JsonFloats] {b : Builder} {w : World} {fuel : Nat}
    {out : CompileOutput} {j : Json} {s : Schema} (h : Converts b w fuel out j)
    (hw : w.parseJson = parseJsonWithComments) (hs : out.file = .schema s)
    (hc : Coherent out.registry.schemas) (hf : ∀ t ∈ out.registry.schemas, Faithful t)
    (hfs : Faithful s) (hfl : FloatsSurvive j) (hn : nesting j ≤ 127)
    {b₂ : Builder} {w₂ : World} {n : Nat} {text name file : String} {dir f : Path}
    {path : Option Path} (hw₂ : w₂.parseJson = parseJsonWithComments) (hr : Contains w₂ f j)
    (hi : OnlyImports w₂ text name .schema file) (hto : ImportsTo w₂ b₂.importDirs dir file f)
    (hnew : f ∉ path.toList) :
    ∃ out' b₂', b₂.compile w₂ (n + 1) text name dir path = (.ok out', b₂') ∧
      SameTypesFor (Mentions out.registry.find? s) out.registry out'.registry := by
  obtain ⟨_, hmem⟩ := C46_convert_partial h hs hc
  obtain ⟨⟨text0, name0, dir0, path0, b0, hcomp⟩, hj⟩ := h.compiled
  have hT := compile_tableOk hcomp (d := none) hc (fun hne => absurd rfl hne)
  obtain ⟨hnd, hout⟩ := compile_schema hcomp hs hc
  have hk := compile_kept hcomp (holdsJson_of_parse hw)
  unfold outputJson at hj
  rw [hs] at hj
  simp only at hj
  cases hser : schemaToJson (buildLookup out.registry.schemas none) fuel s none [] with
  | none => rw [hser] at hj; cases hj
  | some r =>
    obtain ⟨j', K⟩ := r
    rw [hser] at hj
    simp only [Option.map_some, Option.some.injEq] at hj
    subst hj
    have hrun := (ser_events _ hT.lookupOk fuel).1 s none [] j' K
      (by rw [hT.has_eq]; exact hout) hser
    have hK := run_defs hrun
    rw [List.append_nil] at hK
    have hKm : ∀ x, x ∈ K ↔ Mentions out.registry.find? s x := by
      intro x; rw [← hmem x, hK, List.mem_reverse]; rfl
    have hkept := compile_schema_kept hcomp hs
    have hlin := hT.lookupIn fun t ht => inOk_of_kept (hk t ht) (hf t ht)
    obtain ⟨s', g1, _, g3⟩ := (ser_import _ hT.lookupOk hlin fuel).1 s none none [] j' K "" hnd
      (by rw [hT.has_eq]; exact hout) (inOk_of_kept hkept hfs) rfl hser
    have hheld := schemaToJson_held (buildLookup_kept hT.flat hk) fuel s none [] j' K hkept hser
    have ha := (ser_adds _ (TableOk.flatLookup hT) fuel).1 s none [] j' K hnd hser
    obtain ⟨out', b', o1, o2⟩ := reimport_schema (n := n) hcomp hc g1 g3
      (run_nodup List.nodup_nil hrun) ha hheld hfl hn hw₂ hr hi hto hnew
    exact ⟨out', b', o1, o2.distinct, fun x => (o2.names x).trans (hKm x), o2.types⟩

/-- **C45 for extracted schemas (partial).** When one of the extracted documents has been written
to a file, a protocol that only imports this file compiles, and has exactly the type and those it
mentions, with the same definitions.  (Conditions as in `C45_protocol_partial`.) -/
theorem C45_extract_partial [JsonFloats] {b : Builder} {w : World} {fuel : Nat}
    {out : CompileOutput} {docs : List (String × Json)} (h : Extracts b w fuel out docs)
    (hw : w.parseJson = parseJsonWithComments) (hc : Coherent out.registry.schemas)
    (hf : ∀ t ∈ out.registry.schemas, Faithful t)
    {kt : String × Schema} {j : Json} (hkt : (kt, j) ∈ out.registry.zip (docs.map Prod.snd))
    (hfl : FloatsSurvive j) (hn : nesting j ≤ 127)
    {b₂ : Builder} {w₂ : World} {n : Nat} {text name file : String} {dir f : Path}
    {path : Option Path} (hw₂ : w₂.parseJson = parseJsonWithComments) (hr : Contains w₂ f j)
    (hi : OnlyImports w₂ text name .schema file) (hto : ImportsTo w₂ b₂.importDirs dir file f)
    (hnew : f ∉ path.toList) :
    ∃ out' b₂', b₂.compile w₂ (n + 1) text name dir path = (.ok out', b₂') ∧
      SameTypesFor (fun x => x = kt.1 ∨ Mentions out.registry.find? kt.2 x) out.registry
        out'.registry := by
  obtain ⟨_, hmem⟩ := C46_extract_partial h hc _ hkt
  obtain ⟨⟨text0, name0, dir0, path0, b0, h⟩, he⟩ := h.compiled
  have hT := compile_tableOk h (d := none) hc (fun hne => absurd rfl hne)
  have hk := compile_kept h (holdsJson_of_parse hw)
  have hnamed : ∀ t ∈ out.registry.schemas, t.IsNamed := fun t ht =>
    Schema.isNamed_of_flatDef (hT.flat t ht)
  have hz : (kt.2, j) ∈ out.registry.schemas.zip (docs.map Prod.snd) := by
    unfold Registry.schemas
    rw [List.zip_map_left]
    exact List.mem_map.2 ⟨_, hkt, rfl⟩
  obtain ⟨K, hser⟩ := extracted_docs hnamed he _ hz
  simp only at hser
  have htm : kt ∈ out.registry := (List.of_mem_zip hkt).1
  have ht : kt.2 ∈ out.registry.schemas := List.mem_map.2 ⟨_, htm, rfl⟩
  obtain ⟨x0, hx0⟩ := IsNamed_fullName (hnamed _ ht)
  have hget := hT.lookup_iff.2 ⟨ht, hx0⟩
  have hrun : run (events "" j) [] = some K :=
    (ser_events _ hT.lookupOk fuel).2 _ none [] _ K (hnamed _ ht)
      (by rw [hT.has_eq]; exact hT.out _ ht) (hT.ns _ ht) (by simp) hser
  have hK := run_defs hrun
  rw [List.append_nil] at hK
  have hKm : ∀ x, x ∈ K ↔ (x = kt.1 ∨ Mentions out.registry.find? kt.2 x) := by
    intro x; rw [← hmem x, hK, List.mem_reverse]
  have hlin := hT.lookupIn fun t ht => inOk_of_kept (hk t ht) (hf t ht)
  obtain ⟨s', _, _, g1, _, _, _, g3⟩ := (ser_import _ hT.lookupOk hlin fuel).2 kt.2 none none [] j
    K x0 (hnamed _ ht) hget (hT.ns _ ht) (by simp) rfl hser
  have hheld := schemaToJson_held (buildLookup_kept hT.flat hk) fuel kt.2 none [] j K (hk _ ht) hser
  have ha := (ser_adds _ (TableOk.flatLookup hT) fuel).2 _ none [] _ K _ hget (by simp) hser
  obtain ⟨out', b', o1, o2⟩ := reimport_schema (n := n) h hc g1 g3
    (run_nodup List.nodup_nil hrun) ha hheld hfl hn hw₂ hr hi hto hnew
  exact ⟨out', b', o1, o2.distinct, fun x => (o2.names x).trans (hKm x), o2.types⟩

end

/-! ## An example -/

section
attribute [local instance] asciiTables exFloats exCases exJsonFloats

/-- A directory with some files, and the parsers of the program. -/
def exReimportWorld (read : Path → Option String) : World :=
  { exLayoutWorld read with parseJson := parseJsonWithComments }

/-- A protocol with an enum, a recursive record and a message. -/
def exOriginal (p : Path) : Option String :=
  if p = "a" then
    some "@namespace(\"p\")protocol P{enum E{X,Y}record R{E e=\"X\";R?r;date d;}R f(E e)throws F;error F{}}"
  else none

/-- What is compiled, and its document. -/
def exCompiled (read : Path → Option String) : CompileOutput :=
  compiledOr (Builder.new.compileFile (exReimportWorld read) 9 "a")
def exWritten (read : Path → Option String) : Json :=
  jsonOr (Builder.new.convert (exReimportWorld read) 9 "a")

/-- The document, and a protocol that imports it. -/
def exReimport (j : Json) (p : Path) : Option String :=
  if p = "a.avpr" then some (prettyJson j ++ "\n")
  else if p = "b" then some "protocol Q{import protocol \"a.avpr\";}"
  else none

/-- A check of `OnlyImports`. -/
def onlyImportsCheck (r : Except CompileErr (IdlFile × List DeclItem × List Warning))
    (kind : ImportKind) (file : String) : Bool :=
  match r with
  | .ok (.protocol q, [.import_ i], _) =>
      decide (i.kind = kind) && decide (i.path = file) && q.messages.isEmpty
  | _ => false

theorem onlyImports_of_check {w : World} {text name file : String} {kind : ImportKind}
    (h : onlyImportsCheck (parseIdl w text name) kind file = true) :
    OnlyImports w text name kind file := by
  cases hp : parseIdl w text name with
  | error e => rw [hp] at h; cases h
  | ok r =>
    rw [hp] at h
    unfold onlyImportsCheck at h
    split at h
    · rename_i q i ws he
      injection he with he
      subst he
      simp only [Bool.and_eq_true, decide_eq_true_eq, List.isEmpty_iff] at h
      exact ⟨q, i, ws, hp, h.1.1, h.1.2, h.2⟩
    · cases h

mutual
/-- A sufficient check of `Faithful`: no annotations and aliases. -/
def faithfulCheck : Schema → Bool
  | .record _ _ _ fs _ al _ => al.isEmpty && faithfulCheckF fs
  | .enum _ _ _ _ _ al _ => al.isEmpty
  | .fixed _ _ _ _ al _ => al.isEmpty
  | .array i _ => faithfulCheck i
  | .map i _ => faithfulCheck i
  | .union ts _ => faithfulCheckL ts
  | .annotated .. => false
  | .logical (.decimal ..) _ => false
  | .logical _ ps => ps.isEmpty
  | _ => true
def faithfulCheckF : List Field → Bool
  | [] => true
  | .mk _ s _ _ _ _ _ :: fs => faithfulCheck s && faithfulCheckF fs
def faithfulCheckL : List Schema → Bool
  | [] => true
  | s :: ss => faithfulCheck s && faithfulCheckL ss
end

mutual
theorem faithful_of_check : ∀ (s : Schema) (e : String), faithfulCheck s = true →
    s.Everywhere (fun _ => FaithfulNode) (fun _ => True) e
  | .prim _, _, _ => trivial
  | .ref .., _, _ => trivial
  | .union ts _, e, h => ⟨trivial, faithfulL_of_check ts e h⟩
  | .array i _, e, h => ⟨trivial, faithful_of_check i e h⟩
  | .map i _, e, h => ⟨trivial, faithful_of_check i e h⟩
  | .annotated .., _, h => by cases h
  | .enum _ _ _ _ _ al _, _, h => by
    simp only [faithfulCheck, List.isEmpty_iff] at h
    subst h
    simp [Schema.Everywhere, FaithfulNode]
  | .fixed _ _ _ _ al _, _, h => by
    simp only [faithfulCheck, List.isEmpty_iff] at h
    subst h
    simp [Schema.Everywhere, FaithfulNode]
  | .record _ ns _ fs _ al _, e, h => by
    simp only [faithfulCheck, Bool.and_eq_true, List.isEmpty_iff] at h
    obtain ⟨h1, h2⟩ := h
    subst h1
    exact ⟨by simp [FaithfulNode], faithfulF_of_check fs _ h2⟩
  | .logical lt ps, _, h => by
    cases lt <;> simp only [faithfulCheck, List.isEmpty_iff] at h <;>
      first | (subst h; simp [Schema.Everywhere, FaithfulNode, Props.Avoids]; done) | cases h
theorem faithfulF_of_check : ∀ (fs : List Field) (e : String), faithfulCheckF fs = true →
    Schema.EverywhereF (fun _ => FaithfulNode) (fun _ => True) e fs
  | [], _, _ => trivial
  | .mk _ s _ _ _ _ _ :: fs, e, h => by
    simp only [faithfulCheckF, Bool.and_eq_true] at h
    exact ⟨trivial, faithful_of_check s e h.1, faithfulF_of_check fs e h.2⟩
theorem faithfulL_of_check : ∀ (ss : List Schema) (e : String), faithfulCheckL ss = true →
    Schema.EverywhereL (fun _ => FaithfulNode) (fun _ => True) e ss
  | [], _, _ => trivial
  | s :: ss, e, h => by
    simp only [faithfulCheckL, Bool.and_eq_true] at h
    exact ⟨faithful_of_check s e h.1, faithfulL_of_check ss e h.2⟩
end

/-- The same for messages. -/
def faithfulCheckM (m : Message) : Bool :=
  m.request.all (fun f => faithfulCheck f.schema) && faithfulCheck m.response &&
    (m.errors.getD []).all faithfulCheck

theorem faithfulMessage_of_check {m : Message} (h : faithfulCheckM m = true) :
    FaithfulMessage m := by
  simp only [faithfulCheckM, Bool.and_eq_true, List.all_eq_true] at h
  refine ⟨fun f hf => faithful_of_check _ _ (h.1.1 f hf), faithful_of_check _ _ h.1.2,
    fun es he s hs => faithful_of_check _ _ (h.2 s ?_)⟩
  rw [he]; exact hs

/-- A protocol satisfies the checks. -/
def protocolCheck (f : IdlFile) : Bool :=
  match f with
  | .protocol p => p.types.all faithfulCheck && p.messages.all fun nm => faithfulCheckM nm.2
  | _ => false

mutual
/-- A document without floating point numbers. -/
def noFloats : Json → Bool
  | .num (.float ..) => false
  | .arr l => noFloatsList l
  | .obj m => noFloatsMap m
  | _ => true
def noFloatsList : List Json → Bool
  | [] => true
  | j :: l => noFloats j && noFloatsList l
def noFloatsMap : List (String × Json) → Bool
  | [] => true
  | (_, j) :: m => noFloats j && noFloatsMap m
end

mutual
theorem floatsSurvive_of_none : ∀ (j : Json), noFloats j = true → FloatsSurvive j
  | .null, _ => trivial
  | .bool _, _ => trivial
  | .num (.int _), _ => trivial
  | .num (.float ..), h => by cases h
  | .str _, _ => trivial
  | .arr l, h => floatsSurviveList_of_none l h
  | .obj m, h => floatsSurviveMap_of_none m h
theorem floatsSurviveList_of_none : ∀ (l : List Json), noFloatsList l = true → FloatsSurviveList l
  | [], _ => trivial
  | j :: l, h => by
    simp only [noFloatsList, Bool.and_eq_true] at h
    exact ⟨floatsSurvive_of_none j h.1, floatsSurviveList_of_none l h.2⟩
theorem floatsSurviveMap_of_none : ∀ (m : List (String × Json)), noFloatsMap m = true →
    FloatsSurviveMap m
  | [], _ => trivial
  | (_, j) :: m, h => by
    simp only [noFloatsMap, Bool.and_eq_true] at h
    exact ⟨floatsSurvive_of_none j h.1, floatsSurviveMap_of_none m h.2⟩
end

/-- All that has to be computed about an example. -/
def exChecks (rd : Path → Option String) : Bool :=
  (Builder.new.compileFile (exReimportWorld rd) 9 "a").1.toBool &&
  (Builder.new.convert (exReimportWorld rd) 9 "a").1.toBool &&
  protocolCheck (exCompiled rd).file && noDefsCheck (exCompiled rd).file &&
  decide (∀ x ∈ (exCompiled rd).registry.names, '.' ∈ x.toList) &&
  noFloats (exWritten rd) && decide (nesting (exWritten rd) ≤ 127)

theorem exOriginal_checks : exChecks exOriginal = true := by decide +kernel

attribute [local irreducible] exCompiled exWritten Builder.compileFile Builder.convert
  Builder.compile

theorem exImport_checks : onlyImportsCheck (parseIdl (exReimportWorld exOriginal)
    "protocol Q{import protocol \"a.avpr\";}" "b") .protocol "a.avpr" = true := by decide +kernel

theorem parseIdl_congr {w w' : World} (h : w.parse = w'.parse) (text name : String) :
    parseIdl w text name = parseIdl w' text name := by
  unfold parseIdl
  rw [h]

theorem exImport_only (rd : Path → Option String) : OnlyImports (exReimportWorld rd)
    "protocol Q{import protocol \"a.avpr\";}" "b" .protocol "a.avpr" := by
  refine onlyImports_of_check ?_
  rw [parseIdl_congr (w := exReimportWorld rd) (w' := exReimportWorld exOriginal) rfl]
  exact exImport_checks

/-- Non-vacuity: the theorem applies to the example. -/
example : ∃ out out' p p' b', (Builder.new.compileFile (exReimportWorld exOriginal) 9 "a").1 = .ok out ∧
    Builder.new.compile (exReimportWorld (exReimport (exWritten exOriginal))) 9
      "protocol Q{import protocol \"a.avpr\";}" "b" "" (some "b") = (.ok out', b') ∧
    out.file = .protocol p ∧ out'.file = .protocol p' ∧
    SameTypes out.registry out'.registry ∧ SameMessages p.messages p'.messages := by
  have hk := exOriginal_checks
  simp only [exChecks, Bool.and_eq_true, decide_eq_true_eq] at hk
  obtain ⟨⟨⟨⟨⟨⟨k1, k2⟩, k3⟩, k4⟩, k5⟩, k6⟩, k7⟩ := hk
  have hconv : Converts Builder.new (exReimportWorld exOriginal) 9
      (exCompiled exOriginal) (exWritten exOriginal) := by
    unfold exCompiled exWritten
    exact converts_of_ok k1 k2
  have hok : (Builder.new.compileFile (exReimportWorld exOriginal) 9 "a").1 =
      .ok (exCompiled exOriginal) := by
    unfold exCompiled compiledOr
    revert k1
    cases (Builder.new.compileFile (exReimportWorld exOriginal) 9 "a").1 with
    | error e => intro h; cases h
    | ok out => intro _; rfl
  obtain ⟨⟨text, name, dir, path, b', h⟩, _⟩ := hconv.compiled
  have hc := (coherent_of_namespaced h k5 (noDefs_of_check k4)).2
  generalize exCompiled exOriginal = out at *
  generalize exWritten exOriginal = j at *
  unfold CoherentOutput at hc
  cases hp : out.file with
  | named ss => rw [hp] at k3; cases k3
  | schema s => rw [hp] at k3; cases k3
  | protocol p =>
    rw [hp] at hc k3
    simp only [protocolCheck, Bool.and_eq_true, List.all_eq_true] at k3
    obtain ⟨out', p', b', h1, h2, h3, h4⟩ := C45_protocol_partial hconv rfl hp hc
      (fun t ht => faithful_of_check t _ (k3.1 t ht))
      (fun nm hnm => faithfulMessage_of_check (k3.2 nm hnm)) (floatsSurvive_of_none _ k6) k7
      (b₂ := Builder.new) (w₂ := exReimportWorld (exReimport j)) (n := 8)
      (text := "protocol Q{import protocol \"a.avpr\";}") (name := "b") (file := "a.avpr")
      (dir := "") (f := "a.avpr") (path := some "b") rfl
      (.inr (by show exReimport j "a.avpr" = _; unfold exReimport; rw [if_pos rfl]))
      (exImport_only _)
      ⟨"a.avpr", ⟨0, "", rfl, rfl, by
        show (exReimport j "a.avpr").isSome = true
        unfold exReimport; rw [if_pos rfl]; rfl, by
        intro i d hi; cases hi⟩, rfl⟩ (by decide)
    exact ⟨out, out', p, p', b', hok, h1, hp, h2, h3, h4⟩

/-! ## Where the property fails -/

/-- A protocol with an annotated primitive that names a logical type of another base. -/
def exLossy (p : Path) : Option String :=
  if p = "a" then some "protocol P{record R{@logicalType(\"date\")string s;}}" else none

/-- A record whose first field is of a logical type. -/
def firstLogical : Schema → Bool
  | .record _ _ _ (.mk _ (.logical ..) _ _ _ _ _ :: _) _ _ _ => true
  | _ => false

theorem firstLogical_same {t t' : Schema} (h : SameDef t t') (hl : firstLogical t' = true) :
    firstLogical t = true := by
  cases h with
  | enum => cases hl
  | fixed => cases hl
  | record _ hf _ _ =>
    cases hf with
    | nil => cases hl
    | cons h1 _ =>
      have ht := h1.type
      revert hl ht
      rename_i f f' _ _ _
      cases f
      cases f'
      intro hl ht
      simp only [Field.schema] at ht
      cases ht <;> first | rfl | cases hl

/-- What the importing protocol gets. -/
def exReimported (j : Json) : Except CompileErr CompileOutput × Builder :=
  Builder.new.compile (exReimportWorld (exReimport j)) 9 "protocol Q{import protocol \"a.avpr\";}" "b"
    "" (some "b")

theorem exLossy_checks : ((Builder.new.compileFile (exReimportWorld exLossy) 9 "a").1.toBool &&
    (Builder.new.convert (exReimportWorld exLossy) 9 "a").1.toBool &&
    (exCompiled exLossy).registry.schemas.all (fun t => !firstLogical t) &&
    (match (exReimported (exWritten exLossy)).1 with
      | .ok out' => out'.registry.schemas.any firstLogical
      | .error _ => false)) = true := by decide +kernel

/-- **Finding.** A string annotated with the name of a logical type becomes a value of that logical
type, whose base type is another one, when the written protocol is imported. -/
theorem C45_fails_logical_type : ∃ out j out' b', Converts Builder.new (exReimportWorld exLossy) 9 out j ∧
    Contains (exReimportWorld (exReimport j)) "a.avpr" j ∧
    Builder.new.compile (exReimportWorld (exReimport j)) 9 "protocol Q{import protocol \"a.avpr\";}"
      "b" "" (some "b") = (.ok out', b') ∧
    ¬ SameTypes out.registry out'.registry := by
  have hk := exLossy_checks
  simp only [Bool.and_eq_true, List.all_eq_true] at hk
  obtain ⟨⟨⟨k1, k2⟩, k3⟩, k4⟩ := hk
  have hconv : Converts Builder.new (exReimportWorld exLossy) 9
      (exCompiled exLossy) (exWritten exLossy) := by
    unfold exCompiled exWritten
    exact converts_of_ok k1 k2
  generalize exCompiled exLossy = out at *
  generalize exWritten exLossy = j at *
  have hcon : Contains (exReimportWorld (exReimport j)) "a.avpr" j :=
    .inr (by show exReimport j "a.avpr" = _; unfold exReimport; rw [if_pos rfl])
  unfold exReimported at k4
  cases hr : Builder.new.compile (exReimportWorld (exReimport j)) 9
      "protocol Q{import protocol \"a.avpr\";}" "b" "" (some "b") with
  | mk r b' =>
    rw [hr] at k4
    cases r with
    | error e => cases k4
    | ok out' =>
      refine ⟨out, j, out', b', hconv, hcon, hr, fun hs => ?_⟩
      simp only [List.any_eq_true] at k4
      obtain ⟨t', h1, h2⟩ := k4
      obtain ⟨kt, h3, rfl⟩ := List.mem_map.1 h1
      obtain ⟨t, h4, h5⟩ := hs.types kt.1 kt.2 h3
      have := k3 t (List.mem_map.2 ⟨_, h4, rfl⟩)
      rw [firstLogical_same h5 h2] at this
      cases this

end

end Avdl.Props
