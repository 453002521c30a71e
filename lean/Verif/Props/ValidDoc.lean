import Verif.Lemmas.ValidDoc
import Verif.Lemmas.DocUnique
import Verif.Props.Reimport
/-!
# C60: what is written is valid Avro, and means what was declared
-/

namespace Avdl
open Spec

theorem primDoc_annotated {k : Prim} {ps : Props} (hwf : ps.Wf) (hn : ¬ NamesLogical ps.get?) :
    PrimDoc k ((JMap.insert "type" (.str k.asStr) []).insertAll ps) := by
  have hkeys : KeysIn ["type"] (JMap.insert "type" (.str k.asStr) []) :=
    (keysIn_nil _).insert (by simp) _
  have hget : ∀ key, key ≠ "type" →
      ((JMap.insert "type" (.str k.asStr) []).insertAll ps).get? key = ps.get? key := fun key hk =>
    get?_insertAll_wf hwf (get?_none_of_keysIn hkeys (by simpa using hk))
  refine ⟨fun ⟨n, h1, h2, h3⟩ => absurd ⟨n, ?_, h2, fun h => ?_⟩ hn, fun n h1 h2 h3 =>
    absurd ⟨n, ?_, h2, fun h => absurd h h3⟩ hn⟩
  · rw [← hget _ (by decide)]; exact h1
  · obtain ⟨p, h4, h5⟩ := h3 h
    rw [hget _ (by decide)] at h5
    exact ⟨p, h4, h5⟩
  · rw [← hget _ (by decide)]; exact h1

theorem primDoc_logical {lt : LogicalType} {ps : Props} (hav2 : ps.Avoids ["logicalType", "precision", "scale"])
    (hdec : ∀ p s, lt = .decimal p s → 1 ≤ p ∧ p < 2 ^ 32 ∧ s ≤ p) :
    PrimDoc lt.base (logicalObj lt ps) := by
  have hobj : logicalObj lt ps = (logicalBase lt).insertAll ps := rfl
  have hget : ∀ key ∈ ["logicalType", "precision", "scale"],
      (logicalObj lt ps).get? key = (logicalBase lt).get? key :=
    fun key hk => by rw [hobj]; exact get?_insertAll_avoid hav2 hk
  have hlt : (logicalObj lt ps).get? "logicalType" = some (.str lt.name) := by
    rw [hget _ (by simp)]
    cases lt <;> simp [logicalBase, JMap.get?_insert]
  refine ⟨fun _ => ⟨lt, ?_⟩, fun n h1 h2 h3 => ?_⟩
  · cases lt with
    | decimal p s =>
      obtain ⟨d1, d2, d3⟩ := hdec p s rfl
      refine .decimal hlt rfl ?_ d1 d2 (.inr ?_) d3
      · rw [hget _ (by simp)]; simp [logicalBase, JMap.get?_insert]
      · rw [hget _ (by simp)]; simp [logicalBase, JMap.get?_insert]
    | _ => exact .simple hlt rfl (by intro a b h; cases h)
  · rw [hlt] at h1
    injection h1 with h1
    injection h1 with h1
    subst h1
    rw [hget _ (by simp), hget _ (by simp)]
    cases lt with
    | decimal p s => exact absurd rfl h3
    | _ => simp [logicalBase, JMap.get?_insert, JMap.get?]

theorem writtenPrim_of (s : Schema) (hp : PlainNode s) (hk : KeptNode s) (hf : FaithfulNode s)
    (hd : DecimalNode s) : WrittenPrim PrimDoc s := by
  cases s with
  | annotated k ps =>
    simp only [KeptNode, FaithfulNode] at hk hf
    exact primDoc_annotated hk.1.1 hf
  | logical lt ps =>
    simp only [KeptNode, FaithfulNode, PlainNode] at hk hf
    exact primDoc_logical hf.1 fun p s h => ⟨hf.2 p s h, (hk.1 p s h).1, hd p s ps (by rw [h])⟩
  | _ => trivial

theorem fit_faithful {s : Schema} (hp : s.Plain) (hk : s.Kept) (hf : Faithful s)
    (hd : DecimalsOk s) : Fit PrimDoc s := ⟨_, fits_of writtenPrim_of hp hk hf hd⟩

theorem fit_any {s : Schema} (hp : s.Plain) (hk : s.Kept) : Fit (fun _ _ => True) s :=
  ⟨"", fits_of (X := fun _ => True) (Y := fun _ => True)
    (fun s _ _ _ _ => by cases s <;> trivial) hp hk (everywhere_true s "") (everywhere_true s "")⟩

section
variable [CharTables] [FloatTables] [CaseTables]

theorem compile_schema_plain {b b' : Builder} {w : World} {fuel : Nat} {text name : String}
    {dir : Path} {path : Option Path} {out : CompileOutput}
    (h : b.compile w fuel text name dir path = (.ok out, b')) {s : Schema}
    (hs : out.file = .schema s) : s.Plain := by
  obtain ⟨file, decls, ws, es, seen, k, h1, _, _, _, _, _, h7, _⟩ := Props.compile_ok h
  rw [hs] at h7
  cases file with
  | protocol q => exact h7.elim
  | named ss => exact h7.elim
  | schema s' =>
    simp only at h7
    subst h7
    obtain ⟨ns, ht⟩ := (parseIdl_out h1).schema s rfl
    exact ht.plain.1
end

end Avdl

namespace Avdl.Props
open Spec

theorem defineOnly_of {types : List Schema} (hT : TableOk none types) {s' : Schema} {K : Known}
    {names : String → Prop} (hb : Brought (buildLookup types none) (definitions s') [] K)
    (hK : K.Nodup) (hn : ∀ x, x ∈ K ↔ names x) : DefineOnly names types s' := by
  obtain ⟨new, n1, n2⟩ := hb.new
  rw [List.append_nil] at n1
  subst n1
  refine ⟨n2.nodup_iff.1 hK, fun x => n2.mem_iff.symm.trans (hn x), fun t' h' => ?_⟩
  obtain ⟨full, t, b1, b2, b3⟩ := hb.same t' h'
  exact ⟨t, (hT.lookup_iff.1 b2).1, b3⟩

section
variable [CharTables] [FloatTables] [CaseTables]

/-- **C60, protocols.** The document written for a compiled protocol is a valid Avro protocol, with
the name, namespace, documentation and annotations of the protocol. -/
theorem C60_protocol_valid [JsonFloats] {b : Builder} {w : World} {fuel : Nat}
    {out : CompileOutput} {j : Json} {p : Protocol} (h : Converts b w fuel out j)
    (hw : w.parseJson = parseJsonWithComments) (hp : out.file = .protocol p) :
    ValidProtocolDoc j ∧ ∃ obj, j = .obj obj ∧ DescribesHead obj p := by
  obtain ⟨⟨text0, name0, dir0, path0, b0, h⟩, hj⟩ := h.compiled
  unfold outputJson at hj
  rw [hp] at hj
  simp only at hj
  have hh := holdsJson_of_parse hw
  obtain ⟨ht, hps, hmp⟩ := compile_protocol h hp
  have hty := compile_types h
  have hk := compile_kept h hh
  obtain ⟨k1, k2, k3⟩ := compile_protocol_kept h hh hp
  rw [← ht] at hk hty
  obtain ⟨a1, obj, rfl, a2, a3, a4, a5⟩ := protocolToJson_valid (P := fun _ _ => True)
    (fun t h => (hty t h).2) (fun t h => fit_any (hty t h).1 (hk t h)) hps k3
    (fun nm h => ⟨hmp nm h, fun f hf => fit_any ((hmp nm h).request f hf).2
      ((k2 nm h).request f hf).2, fit_any (hmp nm h).response (k2 nm h).response,
      fun es he s hs => fit_any ((hmp nm h).errors es he s hs) ((k2 nm h).errors es he s hs)⟩) hj
  exact ⟨a1, obj, rfl, a2, a4, a3, a5 k1.1⟩

/-- **C60, schema files.** The document written for a compiled schema file is a valid Avro
schema. -/
theorem C60_schema_valid [JsonFloats] {b : Builder} {w : World} {fuel : Nat}
    {out : CompileOutput} {j : Json} {s : Schema} (h : Converts b w fuel out j)
    (hw : w.parseJson = parseJsonWithComments) (hs : out.file = .schema s) : ValidSchemaDoc j := by
  obtain ⟨⟨text0, name0, dir0, path0, b0, hcomp⟩, hj⟩ := h.compiled
  unfold outputJson at hj
  rw [hs] at hj
  simp only at hj
  have hty := compile_types hcomp
  have hk := compile_kept hcomp (holdsJson_of_parse hw)
  cases hser : schemaToJson (buildLookup out.registry.schemas none) fuel s none [] with
  | none => rw [hser] at hj; cases hj
  | some r =>
    obtain ⟨j', K⟩ := r
    rw [hser] at hj
    simp only [Option.map_some, Option.some.injEq] at hj
    subst hj
    exact schemaToJson_valid (buildLookup_fit (fun t h => (hty t h).2)
      fun t h => fit_any (hty t h).1 (hk t h)) fuel s none [] _ K
      (fit_any (compile_schema_plain hcomp hs) (compile_schema_kept hcomp hs)) hser

/-- **C60, extracted schemas.** Every document extracted from a file is a valid Avro schema. -/
theorem C60_extract_valid [JsonFloats] {b : Builder} {w : World} {fuel : Nat}
    {out : CompileOutput} {docs : List (String × Json)} (h : Extracts b w fuel out docs)
    (hw : w.parseJson = parseJsonWithComments)
    {kt : String × Schema} {j : Json} (hkt : (kt, j) ∈ out.registry.zip (docs.map Prod.snd)) :
    ValidSchemaDoc j := by
  obtain ⟨⟨text0, name0, dir0, path0, b0, h⟩, he⟩ := h.compiled
  have hty := compile_types h
  have hk := compile_kept h (holdsJson_of_parse hw)
  have hz : (kt.2, j) ∈ out.registry.schemas.zip (docs.map Prod.snd) := by
    unfold Registry.schemas
    rw [List.zip_map_left]
    exact List.mem_map.2 ⟨_, hkt, rfl⟩
  obtain ⟨K, hser⟩ := extracted_docs (fun t ht => Schema.isNamed_of_flatDef (hty t ht).2) he _ hz
  have ht : kt.2 ∈ out.registry.schemas := (List.of_mem_zip hz).1
  exact schemaToJson_valid (buildLookup_fit (fun t h => (hty t h).2)
      fun t h => fit_any (hty t h).1 (hk t h)) fuel _ none [] _ K
      (fit_any (hty _ ht).1 (hk _ ht)) hser

/-- **C60, protocols: meaning (partial).** Read as the Avro specification says, the document of a
compiled protocol defines exactly the types of the protocol, each once and with the same definition,
and has the same messages.

Full property: for all compiled protocols.  The conditions are: namespaces are not mixed (`C03`,
`C04`), no annotated primitive names a logical type, no alias `.X` (`Faithful`), and no decimal has
a scale above its precision (otherwise it is not a decimal for Avro: `C60_fails_decimal`). -/
theorem C60_protocol_partial [JsonFloats] {b : Builder} {w : World} {fuel : Nat}
    {out : CompileOutput} {j : Json} {p : Protocol} (h : Converts b w fuel out j)
    (hw : w.parseJson = parseJsonWithComments) (hp : out.file = .protocol p)
    (hc : CoherentProtocol p) (hf : ∀ t ∈ p.types, Faithful t ∧ DecimalsOk t)
    (hm : ∀ nm ∈ p.messages, FaithfulMessage nm.2 ∧ DecimalsOkMessage nm.2) :
    ∃ ss ms, ProtocolDoc j ss ms ∧ DefineSame p.types ss ∧ SameMessages p.messages ms := by
  obtain ⟨⟨text0, name0, dir0, path0, b0, h⟩, hj⟩ := h.compiled
  unfold outputJson at hj
  rw [hp] at hj
  simp only at hj
  have hh := holdsJson_of_parse hw
  have hP := compile_protocolOk h hp hc
  obtain ⟨ht, hps, hmp⟩ := compile_protocol h hp
  have hty := compile_types h
  have hk := compile_kept h hh
  obtain ⟨k1, k2, k3⟩ := compile_protocol_kept h hh hp
  rw [← ht] at hk hty
  obtain ⟨hv, -⟩ := protocolToJson_valid (P := PrimDoc)
    (fun t h => (hty t h).2) (fun t h => fit_faithful (hty t h).1 (hk t h) (hf t h).1 (hf t h).2) hps
    k3 (fun nm h => ⟨hmp nm h, fun f hf => fit_faithful ((hmp nm h).request f hf).2
      ((k2 nm h).request f hf).2 ((hm nm h).1.request f hf) ((hm nm h).2.request f hf),
      fit_faithful (hmp nm h).response (k2 nm h).response (hm nm h).1.response (hm nm h).2.response,
      fun es he s hs => fit_faithful ((hmp nm h).errors es he s hs) ((k2 nm h).errors es he s hs)
        ((hm nm h).1.errors es he s hs) ((hm nm h).2.errors es he s hs)⟩) hj
  have hio : ∀ t ∈ p.types, InOk t := fun t h => inOk_of_kept (hk t h) (hf t h).1
  have hmsg : ∀ nm ∈ p.messages, InMessage nm.2 := fun nm h => inMessage_of_kept (k2 nm h) (hm nm h).1
  unfold protocolToJson at hj
  cases h1 : mapAccum (fun s k => schemaToJson (buildLookup p.types p.ns) fuel s p.ns k) p.types [] with
  | none => simp only [h1] at hj; cases hj
  | some res =>
    obtain ⟨types, K⟩ := res
    simp only [h1] at hj
    obtain ⟨t1, -, t3, t4⟩ := types_events hP.table fuel p.types (fun _ h => h) [] types K h1
    have hK : ∀ x, x ∈ K ↔ x ∈ fullNames p.types := fun x => ⟨t4 (by simp) x, t3 x⟩
    have hnodup : K.Nodup := run_nodup List.nodup_nil t1
    cases h2 : mapAccum (fun (nm : String × Message) k =>
        (messageToJson (buildLookup p.types p.ns) fuel p.ns nm.2 k).map
          fun jk => ((nm.1, jk.1), jk.2)) p.messages K with
    | none => simp only [h2] at hj; cases hj
    | some res =>
      obtain ⟨msgs, K2⟩ := res
      simp only [h2, Option.some.injEq] at hj
      subst hj
      obtain ⟨g1, g2, g3⟩ := get?_protocolObj hP.props types msgs
      cases hv with
      | @mk obj nm ns doc tys msgs' v1 v2 v3 v4 v5 v6 v7 v8 v9 =>
      rw [g1] at v4
      injection v4 with v4
      injection v4 with v4
      subst v4
      rw [g2] at v7
      injection v7 with v7
      injection v7 with v7
      subst v7
      have hd : nsStr ns = nsStr p.ns := by
        rw [← g3]
        simp only [strAttr, attr_eq_get?]
        cases v2 with
        | absent h0 => rw [h0]; rfl
        | present h0 => rw [h0]; rfl
      obtain ⟨cs, c1, c2⟩ := types_import (d' := ns) hP.table hio hd fuel p.types (fun _ h => h) []
        types K h1
      obtain ⟨ss, s1, s2⟩ := validTypes_means v5 ns
      rw [jsonToSchemaList_eq, c1] at s2
      injection s2 with s2
      subst s2
      have hfn : (fun x => x ∈ fullNames p.types) = (fun x => x ∈ K) :=
        funext fun x => propext (hK x).symm
      have hmsgs := hP.messages
      rw [hfn] at hmsgs
      obtain ⟨m1, m2⟩ := messages_import (n := fuel) hP.table.lookupOk (hP.table.lookupIn hio)
        (fun x hx => hP.table.has_iff.mpr ((hK x).mp hx)) hd p.messages
        (fun nm hnm => ⟨hmsgs nm hnm, hmsg nm hnm⟩) msgs K2 h2
      have hperm := insertAll_nil_perm (l := msgs) (by rw [m1]; exact k3)
      obtain ⟨ms, i1, i2, i3⟩ := importMessages_ok (d := ns)
        (R := fun name m' => ∃ m, (name, m) ∈ p.messages ∧ SameMessage m m')
        (JMap.insertAll [] msgs) (by
          intro kv hkv
          obtain ⟨m, m', a1, a2, a3⟩ := m2 kv (hperm.mem_iff.1 hkv)
          exact ⟨m', a2, m, a1, a3⟩)
      obtain ⟨ms', j1, j2⟩ := validMessages_mean (d := ns) v9
      rw [i1] at j2
      injection j2 with j2
      subst j2
      obtain ⟨new, n1, n2⟩ := c2.new
      rw [List.append_nil] at n1
      subst n1
      refine ⟨cs, ms, .mk v2 (.inr ⟨_, g1, s1⟩) (.inr ⟨_, g2, j1⟩), ⟨?_, fun t' h' => ?_⟩, ?_, i3⟩
      · exact n2.symm.trans ((List.perm_ext_iff_of_nodup hnodup hP.table.distinct).2 hK)
      · obtain ⟨full, t, b1, b2, b3⟩ := c2.same t' h'
        exact ⟨t, (hP.table.lookup_iff.1 b2).1, b3⟩
      · rw [i2, ← m1]
        exact hperm.map _

/-- **C60, schema files: meaning (partial).** Read as the Avro specification says, the document of
a compiled schema file is the declared type, and defines exactly the types it mentions, each once and
with the same definition.  (Conditions as in `C60_protocol_partial`.) -/
theorem C60_schema_partial [JsonFloats] {b : Builder} {w : World} {fuel : Nat}
    {out : CompileOutput} {j : Json} {s : Schema} (h : Converts b w fuel out j)
    (hw : w.parseJson = parseJsonWithComments) (hs : out.file = .schema s)
    (hc : Coherent out.registry.schemas)
    (hf : ∀ t ∈ out.registry.schemas, Faithful t ∧ DecimalsOk t)
    (hfs : Faithful s ∧ DecimalsOk s) :
    ∃ s', SchemaDoc none j s' ∧ Same s (outline s') ∧
      DefineOnly (Mentions out.registry.find? s) out.registry.schemas s' := by
  obtain ⟨_, hmem⟩ := C46_convert_partial h hs hc
  obtain ⟨⟨text0, name0, dir0, path0, b0, hcomp⟩, hj⟩ := h.compiled
  have hT := compile_tableOk hcomp (d := none) hc (fun hne => absurd rfl hne)
  obtain ⟨hnd, hout⟩ := compile_schema hcomp hs hc
  have hty := compile_types hcomp
  have hk := compile_kept hcomp (holdsJson_of_parse hw)
  unfold outputJson at hj
  rw [hs] at hj
  simp only at hj
  cases hser : schemaToJson (buildLookup out.registry.schemas none) fuel s none [] with
  | none => rw [hser] at hj; cases hj
  | some r =>
    obtain ⟨j', K⟩ := r
    rw [hser] at hj
    simp only [Option.map_some, Option.some.injEq] at hj
    subst hj
    have hrun := (ser_events _ hT.lookupOk fuel).1 s none [] j' K
      (by rw [hT.has_eq]; exact hout) hser
    have hK := run_defs hrun
    rw [List.append_nil] at hK
    have hKm : ∀ x, x ∈ K ↔ Mentions out.registry.find? s x := by
      intro x; rw [← hmem x, hK, List.mem_reverse]; rfl
    have hkept := compile_schema_kept hcomp hs
    have hlin := hT.lookupIn fun t ht => inOk_of_kept (hk t ht) (hf t ht).1
    obtain ⟨s', g1, g2, g3⟩ := (ser_import _ hT.lookupOk hlin fuel).1 s none none [] j' K "" hnd
      (by rw [hT.has_eq]; exact hout) (inOk_of_kept hkept hfs.1) rfl hser
    have hv := schemaToJson_valid (P := PrimDoc) (buildLookup_fit (fun t h => (hty t h).2)
      fun t h => fit_faithful (hty t h).1 (hk t h) (hf t h).1 (hf t h).2) fuel s none [] _ K
      (fit_faithful (compile_schema_plain hcomp hs) hkept hfs.1 hfs.2) hser
    obtain ⟨s'', u1, u2⟩ := validType_means hv none
    rw [g1] at u2
    injection u2 with u2
    subst u2
    exact ⟨s', u1, g2, defineOnly_of hT g3 (run_nodup List.nodup_nil hrun) hKm⟩

/-- **C60, extracted schemas: meaning (partial).** Read as the Avro specification says, an extracted
document is the definition of the type it was written for, and defines besides exactly the types
mentioned, each once and with the same definition.  (Conditions as in `C60_protocol_partial`.) -/
theorem C60_extract_partial [JsonFloats] {b : Builder} {w : World} {fuel : Nat}
    {out : CompileOutput} {docs : List (String × Json)} (h : Extracts b w fuel out docs)
    (hw : w.parseJson = parseJsonWithComments) (hc : Coherent out.registry.schemas)
    (hf : ∀ t ∈ out.registry.schemas, Faithful t ∧ DecimalsOk t)
    {kt : String × Schema} {j : Json} (hkt : (kt, j) ∈ out.registry.zip (docs.map Prod.snd)) :
    ∃ s', SchemaDoc none j s' ∧ SameDef kt.2 (outlineDef s') ∧
      DefineOnly (fun x => x = kt.1 ∨ Mentions out.registry.find? kt.2 x) out.registry.schemas
        s' := by
  obtain ⟨_, hmem⟩ := C46_extract_partial h hc _ hkt
  obtain ⟨⟨text0, name0, dir0, path0, b0, h⟩, he⟩ := h.compiled
  have hT := compile_tableOk h (d := none) hc (fun hne => absurd rfl hne)
  have hty := compile_types h
  have hk := compile_kept h (holdsJson_of_parse hw)
  have hnamed : ∀ t ∈ out.registry.schemas, t.IsNamed := fun t ht =>
    Schema.isNamed_of_flatDef (hT.flat t ht)
  have hz : (kt.2, j) ∈ out.registry.schemas.zip (docs.map Prod.snd) := by
    unfold Registry.schemas
    rw [List.zip_map_left]
    exact List.mem_map.2 ⟨_, hkt, rfl⟩
  obtain ⟨K, hser⟩ := extracted_docs hnamed he _ hz
  simp only at hser
  have htm : kt ∈ out.registry := (List.of_mem_zip hkt).1
  have ht : kt.2 ∈ out.registry.schemas := List.mem_map.2 ⟨_, htm, rfl⟩
  obtain ⟨x0, hx0⟩ := IsNamed_fullName (hnamed _ ht)
  have hget := hT.lookup_iff.2 ⟨ht, hx0⟩
  have hrun : run (events "" j) [] = some K :=
    (ser_events _ hT.lookupOk fuel).2 _ none [] _ K (hnamed _ ht)
      (by rw [hT.has_eq]; exact hT.out _ ht) (hT.ns _ ht) (by simp) hser
  have hK := run_defs hrun
  rw [List.append_nil] at hK
  have hKm : ∀ x, x ∈ K ↔ (x = kt.1 ∨ Mentions out.registry.find? kt.2 x) := by
    intro x; rw [← hmem x, hK, List.mem_reverse]
  have hlin := hT.lookupIn fun t ht => inOk_of_kept (hk t ht) (hf t ht).1
  obtain ⟨s', nm, ns', g1, g2, g3, g4, g5⟩ := (ser_import _ hT.lookupOk hlin fuel).2 kt.2 none none
    [] j K x0 (hnamed _ ht) hget (hT.ns _ ht) (by simp) rfl hser
  have hv := schemaToJson_valid (P := PrimDoc) (buildLookup_fit (fun t h => (hty t h).2)
      fun t h => fit_faithful (hty t h).1 (hk t h) (hf t h).1 (hf t h).2) fuel kt.2 none [] _ K
      (fit_faithful (hty _ ht).1 (hk _ ht) (hf _ ht).1 (hf _ ht).2) hser
  obtain ⟨s'', u1, u2⟩ := validType_means hv none
  rw [g1] at u2
  injection u2 with u2
  subst u2
  have hx0K : x0 ∈ K := ser_named_known _ hT.lookupNamed fuel hx0 (hnamed _ ht) hser
  refine ⟨s', u1, ?_, defineOnly_of hT g5 (run_nodup List.nodup_nil hrun) hKm⟩
  obtain ⟨new, n1, n2⟩ := g5.new
  rw [List.append_nil] at n1
  subst n1
  obtain ⟨tn, htn, htf⟩ := named_fullName (hnamed _ ht)
  rw [g2, Option.some.injEq] at htn
  subst htn
  have key : s' ∈ definitions s' → s'.fullName? = some (makeFullName nm ns') →
      SameDef kt.2 (outlineDef s') := by
    intro hm hn
    obtain ⟨full, t, b1, b2, b3⟩ := g5.same s' hm
    rw [hn, makeFullName_nsStr nm ns', g4, ← makeFullName_nsStr, ← htf, hx0] at b1
    injection b1 with b1
    subst b1
    rw [hget] at b2
    injection b2 with b2
    subst b2
    exact b3
  cases s' with
  | record n ns d fs e al ps =>
    simp only [outline, Schema.ref.injEq] at g3
    exact key (by simp [definitions]) (by simp only [Schema.fullName?]; rw [g3.1, g3.2.1])
  | enum n ns d fs e al ps =>
    simp only [outline, Schema.ref.injEq] at g3
    exact key (by simp [definitions]) (by simp only [Schema.fullName?]; rw [g3.1, g3.2.1])
  | fixed n ns d fs e al =>
    simp only [outline, Schema.ref.injEq] at g3
    exact key (by simp [definitions]) (by simp only [Schema.fullName?]; rw [g3.1, g3.2.1])
  | ref =>
    exfalso
    have := n2.mem_iff.1 hx0K
    simp [definitions] at this
  | _ => simp [outline] at g3

end

/-- **C60, sanity.** A document means at most one protocol, and at most one schema. -/
theorem C60_unique : (∀ j ss ss' ms ms', ProtocolDoc j ss ms → ProtocolDoc j ss' ms' →
      ss = ss' ∧ ms = ms') ∧
    ∀ d j s s', SchemaDoc d j s → SchemaDoc d j s' → s = s' :=
  ⟨fun _ _ _ _ _ h h' => protocolDoc_unique h h', fun _ _ _ _ h h' => schemaDoc_unique h h'⟩

/-! ## An example -/

mutual
/-- A check at all types in a type. -/
def everywhereCheck (c : Schema → Bool) : Schema → Bool
  | .record n ns d fs e al ps => c (.record n ns d fs e al ps) && everywhereCheckF c fs
  | .array i ps => c (.array i ps) && everywhereCheck c i
  | .map i ps => c (.map i ps) && everywhereCheck c i
  | .union ts b => c (.union ts b) && everywhereCheckL c ts
  | .enum n ns d sy df al ps => c (.enum n ns d sy df al ps)
  | .fixed n ns d sz al ps => c (.fixed n ns d sz al ps)
  | .prim p => c (.prim p)
  | .annotated k ps => c (.annotated k ps)
  | .logical lt ps => c (.logical lt ps)
  | .ref n ns ps sp => c (.ref n ns ps sp)
def everywhereCheckF (c : Schema → Bool) : List Field → Bool
  | [] => true
  | .mk _ s _ _ _ _ _ :: fs => everywhereCheck c s && everywhereCheckF c fs
def everywhereCheckL (c : Schema → Bool) : List Schema → Bool
  | [] => true
  | s :: ss => everywhereCheck c s && everywhereCheckL c ss
end

section
variable {c : Schema → Bool} {N : Schema → Prop} (H : ∀ s, c s = true → N s)
include H
mutual
theorem everywhere_of_check : ∀ (s : Schema) (e : String), everywhereCheck c s = true →
    s.Everywhere (fun _ => N) (fun _ => True) e
  | .prim _, _, h | .ref .., _, h | .annotated .., _, h | .logical .., _, h | .enum .., _, h
  | .fixed .., _, h => H _ h
  | .union ts _, e, h => by
    simp only [everywhereCheck, Bool.and_eq_true] at h
    exact ⟨H _ h.1, everywhere_of_checkL ts e h.2⟩
  | .array i _, e, h => by
    simp only [everywhereCheck, Bool.and_eq_true] at h
    exact ⟨H _ h.1, everywhere_of_check i e h.2⟩
  | .map i _, e, h => by
    simp only [everywhereCheck, Bool.and_eq_true] at h
    exact ⟨H _ h.1, everywhere_of_check i e h.2⟩
  | .record _ ns _ fs _ al _, e, h => by
    simp only [everywhereCheck, Bool.and_eq_true] at h
    exact ⟨H _ h.1, everywhere_of_checkF fs _ h.2⟩
theorem everywhere_of_checkF : ∀ (fs : List Field) (e : String), everywhereCheckF c fs = true →
    Schema.EverywhereF (fun _ => N) (fun _ => True) e fs
  | [], _, _ => trivial
  | .mk _ s _ _ _ _ _ :: fs, e, h => by
    simp only [everywhereCheckF, Bool.and_eq_true] at h
    exact ⟨trivial, everywhere_of_check s e h.1, everywhere_of_checkF fs e h.2⟩
theorem everywhere_of_checkL : ∀ (ss : List Schema) (e : String), everywhereCheckL c ss = true →
    Schema.EverywhereL (fun _ => N) (fun _ => True) e ss
  | [], _, _ => trivial
  | s :: ss, e, h => by
    simp only [everywhereCheckL, Bool.and_eq_true] at h
    exact ⟨everywhere_of_check s e h.1, everywhere_of_checkL ss e h.2⟩
end
end

/-- A sufficient check of the conditions on one type. -/
def meaningNode : Schema → Bool
  | .record _ _ _ _ _ al _ | .enum _ _ _ _ _ al _ | .fixed _ _ _ _ al _ => al.isEmpty
  | .annotated _ ps => (ps.get? "logicalType").isNone
  | .logical (.decimal p s) ps => ps.isEmpty && decide (1 ≤ p) && decide (s ≤ p)
  | .logical _ ps => ps.isEmpty
  | _ => true

theorem meaningNode_ok (s : Schema) (h : meaningNode s = true) : FaithfulNode s ∧ DecimalNode s := by
  cases s with
  | record | enum | fixed =>
    simp only [meaningNode, List.isEmpty_iff] at h
    subst h
    exact ⟨fun _ h => (by cases h), fun _ _ _ h => (by cases h)⟩
  | annotated k ps =>
    simp only [meaningNode, Option.isNone_iff_eq_none] at h
    refine ⟨fun ⟨n, h1, _⟩ => ?_, fun _ _ _ h => (by cases h)⟩
    rw [h] at h1
    cases h1
  | logical lt ps =>
    cases lt with
    | decimal p s =>
      simp only [meaningNode, Bool.and_eq_true, List.isEmpty_iff, decide_eq_true_eq] at h
      obtain ⟨⟨rfl, h1⟩, h2⟩ := h
      exact ⟨⟨fun _ h => (by cases h), fun p s h => (by cases h; exact h1)⟩,
        fun p s ps h => (by cases h; exact h2)⟩
    | _ =>
      simp only [meaningNode, List.isEmpty_iff] at h
      subst h
      exact ⟨⟨fun _ h => (by cases h), fun p s h => (by cases h)⟩, fun p s ps h => (by cases h)⟩
  | _ => exact ⟨trivial, fun _ _ _ h => (by cases h)⟩

def meaningCheck (s : Schema) : Bool := everywhereCheck meaningNode s

theorem meaning_of_check {s : Schema} (h : meaningCheck s = true) : Faithful s ∧ DecimalsOk s :=
  ⟨everywhere_of_check (fun s h => (meaningNode_ok s h).1) s _ h,
    everywhere_of_check (fun s h => (meaningNode_ok s h).2) s _ h⟩

/-- The same for the types of messages. -/
def meaningCheckM (m : Message) : Bool :=
  m.request.all (fun f => meaningCheck f.schema) && meaningCheck m.response &&
    (m.errors.getD []).all meaningCheck

theorem meaningMessage_of_check {m : Message} (h : meaningCheckM m = true) :
    FaithfulMessage m ∧ DecimalsOkMessage m := by
  simp only [meaningCheckM, Bool.and_eq_true, List.all_eq_true] at h
  refine ⟨⟨fun f hf => (meaning_of_check (h.1.1 f hf)).1, (meaning_of_check h.1.2).1,
    fun es he s hs => (meaning_of_check (h.2 s ?_)).1⟩, ⟨fun f hf => (meaning_of_check (h.1.1 f hf)).2,
    (meaning_of_check h.1.2).2, fun es he s hs => (meaning_of_check (h.2 s ?_)).2⟩⟩ <;>
    (rw [he]; exact hs)

/-- The schemas of a call. -/
def schemasOr (r : Except CompileErr SchemataOutput × Builder) : List (String × Json) :=
  match r.1 with
  | .ok res => res.schemas
  | .error _ => []

theorem extracts_of_ok [CharTables] [FloatTables] [CaseTables] {b : Builder} {w : World}
    {fuel : Nat} {path : Path} (h0 : w.isDir path = false)
    (h1 : (b.compileFile w fuel path).1.toBool = true) (h2 : (b.extract w fuel path).1.toBool = true) :
    Extracts b w fuel (compiledOr (b.compileFile w fuel path))
      (schemasOr (b.extract w fuel path)) := by
  cases hc : b.compileFile w fuel path with
  | mk r b' =>
    cases hv : b.extract w fuel path with
    | mk r2 b'' =>
      rw [hc] at h1
      rw [hv] at h2
      cases r with
      | error e => cases h1
      | ok out =>
        cases r2 with
        | error e => cases h2
        | ok res => exact .file h0 hc hv rfl

section
attribute [local instance] asciiTables exFloats exCases exJsonFloats

/-- A protocol with a decimal, a primitive with an annotation, an optional field, a nested type,
an error and a message. -/
def exMeaning (p : Path) : Option String :=
  if p = "a" then some "@namespace(\"p\")protocol P{fixed F(4);record R{decimal(4,2)d;@x(1)string s;F?f;date t;}R f(F f)throws E;error E{array<R>l;}}"
  else none

/-- What has to be computed about the example. -/
def exMeaningChecks (rd : Path → Option String) : Bool :=
  (Builder.new.compileFile (exReimportWorld rd) 9 "a").1.toBool &&
  (Builder.new.convert (exReimportWorld rd) 9 "a").1.toBool &&
  (match (exCompiled rd).file with
    | .protocol p => p.types.all meaningCheck && (p.messages.all fun nm => meaningCheckM nm.2) &&
        decide (p.types.length = 3) && decide (p.messages.length = 1)
    | _ => false) && noDefsCheck (exCompiled rd).file &&
  decide (∀ x ∈ (exCompiled rd).registry.names, '.' ∈ x.toList)

/-- The documents extracted. -/
def exExtracted (rd : Path → Option String) : List (String × Json) :=
  schemasOr (Builder.new.extract (exReimportWorld rd) 9 "a")

theorem exExtract_checks : ((Builder.new.compileFile (exReimportWorld exMeaning) 9 "a").1.toBool &&
  (Builder.new.extract (exReimportWorld exMeaning) 9 "a").1.toBool &&
  !(exReimportWorld exMeaning).isDir "a" &&
  (exCompiled exMeaning).registry.schemas.all meaningCheck && noDefsCheck (exCompiled exMeaning).file &&
  decide (∀ x ∈ (exCompiled exMeaning).registry.names, '.' ∈ x.toList) &&
  decide ((exCompiled exMeaning).registry.names = ["p.F", "p.R", "p.E"]) &&
  decide ((exExtracted exMeaning).length = 3)) = true := by decide +kernel

/-- A schema file. -/
def exSchemaFile (p : Path) : Option String :=
  if p = "a" then some "namespace p;schema array<R>;record R{decimal(4,2)d;R?r;}" else none

theorem exSchema_checks : ((Builder.new.compileFile (exReimportWorld exSchemaFile) 9 "a").1.toBool &&
  (Builder.new.convert (exReimportWorld exSchemaFile) 9 "a").1.toBool &&
  (match (exCompiled exSchemaFile).file with
    | .schema s => meaningCheck s
    | _ => false) &&
  (exCompiled exSchemaFile).registry.schemas.all meaningCheck &&
  noDefsCheck (exCompiled exSchemaFile).file &&
  decide (∀ x ∈ (exCompiled exSchemaFile).registry.names, '.' ∈ x.toList)) = true := by
  decide +kernel

theorem exMeaning_checks : exMeaningChecks exMeaning = true := by decide +kernel

attribute [local irreducible] exCompiled exWritten exExtracted Builder.extract Builder.compileFile Builder.convert
  Builder.compile

/-- Non-vacuity: the theorems apply to the example, a protocol with three types and a message. -/
example : ∃ out j p, Converts Builder.new (exReimportWorld exMeaning) 9 out j ∧
    out.file = .protocol p ∧ p.types.length = 3 ∧ p.messages.length = 1 ∧ ValidProtocolDoc j ∧
    ∃ ss ms, ProtocolDoc j ss ms ∧ DefineSame p.types ss ∧ SameMessages p.messages ms := by
  have hk := exMeaning_checks
  simp only [exMeaningChecks, Bool.and_eq_true, decide_eq_true_eq] at hk
  obtain ⟨⟨⟨⟨k1, k2⟩, k3⟩, k4⟩, k5⟩ := hk
  have hconv : Converts Builder.new (exReimportWorld exMeaning) 9
      (exCompiled exMeaning) (exWritten exMeaning) := by
    unfold exCompiled exWritten
    exact converts_of_ok k1 k2
  obtain ⟨⟨text, name, dir, path, b', h⟩, _⟩ := hconv.compiled
  have hc := (coherent_of_namespaced h k5 (noDefs_of_check k4)).2
  generalize exCompiled exMeaning = out at *
  generalize exWritten exMeaning = j at *
  unfold CoherentOutput at hc
  cases hp : out.file with
  | named ss => rw [hp] at k3; cases k3
  | schema s => rw [hp] at k3; cases k3
  | protocol p =>
    rw [hp] at hc k3
    simp only [Bool.and_eq_true, List.all_eq_true, decide_eq_true_eq] at k3
    obtain ⟨⟨⟨m1, m2⟩, m3⟩, m4⟩ := k3
    exact ⟨out, j, p, hconv, hp, m3, m4, (C60_protocol_valid hconv rfl hp).1,
      C60_protocol_partial hconv rfl hp hc (fun t ht => meaning_of_check (m1 t ht))
        fun nm hnm => meaningMessage_of_check (m2 nm hnm)⟩

/-- Non-vacuity for extracted schemas: there are three, and the theorems apply to each. -/
example : ∃ out docs, Extracts Builder.new (exReimportWorld exMeaning) 9 out docs ∧
    out.registry.names = ["p.F", "p.R", "p.E"] ∧ docs.length = 3 ∧
    ∀ kt j, (kt, j) ∈ out.registry.zip (docs.map Prod.snd) → ValidSchemaDoc j ∧
      ∃ s', SchemaDoc none j s' ∧ SameDef kt.2 (outlineDef s') := by
  have hk := exExtract_checks
  simp only [Bool.and_eq_true, Bool.not_eq_true', decide_eq_true_eq, List.all_eq_true] at hk
  obtain ⟨⟨⟨⟨⟨⟨⟨k1, k2⟩, k0⟩, k3⟩, k4⟩, k5⟩, k6⟩, k7⟩ := hk
  have hex : Extracts Builder.new (exReimportWorld exMeaning) 9
      (exCompiled exMeaning) (exExtracted exMeaning) := by
    unfold exCompiled exExtracted
    exact extracts_of_ok k0 k1 k2
  obtain ⟨⟨text, name, dir, path, b', h⟩, _⟩ := hex.compiled
  have hc := (coherent_of_namespaced h k5 (noDefs_of_check k4)).1
  generalize exCompiled exMeaning = out at *
  generalize exExtracted exMeaning = docs at *
  refine ⟨out, docs, hex, k6, k7, fun kt j hkt => ⟨C60_extract_valid hex rfl hkt, ?_⟩⟩
  obtain ⟨s', a, b, _⟩ := C60_extract_partial hex rfl hc (fun t ht => meaning_of_check (k3 t ht)) hkt
  exact ⟨s', a, b⟩

/-- Non-vacuity for schema files. -/
example : ∃ out j s, Converts Builder.new (exReimportWorld exSchemaFile) 9 out j ∧
    out.file = .schema s ∧ ValidSchemaDoc j ∧ ∃ s', SchemaDoc none j s' ∧ Same s (outline s') ∧
      DefineOnly (Mentions out.registry.find? s) out.registry.schemas s' := by
  have hk := exSchema_checks
  simp only [Bool.and_eq_true, decide_eq_true_eq, List.all_eq_true] at hk
  obtain ⟨⟨⟨⟨⟨k1, k2⟩, k3⟩, k3'⟩, k4⟩, k5⟩ := hk
  have hconv : Converts Builder.new (exReimportWorld exSchemaFile) 9
      (exCompiled exSchemaFile) (exWritten exSchemaFile) := by
    unfold exCompiled exWritten
    exact converts_of_ok k1 k2
  obtain ⟨⟨text, name, dir, path, b', h⟩, _⟩ := hconv.compiled
  have hc := (coherent_of_namespaced h k5 (noDefs_of_check k4)).1
  generalize exCompiled exSchemaFile = out at *
  generalize exWritten exSchemaFile = j at *
  cases hs : out.file with
  | named ss => rw [hs] at k3; cases k3
  | protocol p => rw [hs] at k3; cases k3
  | schema s =>
    rw [hs] at k3
    exact ⟨out, j, s, hconv, hs, C60_schema_valid hconv rfl hs,
      C60_schema_partial hconv rfl hs hc (fun t ht => meaning_of_check (k3' t ht))
        (meaning_of_check k3)⟩

/-! ## Where the property fails -/

/-- A decimal whose scale is above its precision, written with annotations. -/
def exScale (p : Path) : Option String :=
  if p = "a" then
    some "protocol P{record R{@logicalType(\"decimal\")@precision(1)@scale(2)bytes b;}}"
  else none

/-- The type of the field, as it is written. -/
def exScaleType : JMap :=
  [("logicalType", .str "decimal"), ("precision", .num (.int 1)), ("scale", .num (.int 2)),
    ("type", .str "bytes")]

/-- The document. -/
def exScaleDoc : Json :=
  .obj [("messages", .obj []), ("protocol", .str "P"), ("types", .arr [.obj [
    ("fields", .arr [.obj [("name", .str "b"), ("type", .obj exScaleType)]]),
    ("name", .str "R"), ("type", .str "record")]])]

theorem exScale_checks : ((Builder.new.compileFile (exReimportWorld exScale) 9 "a").1.toBool &&
    (Builder.new.convert (exReimportWorld exScale) 9 "a").1.toBool &&
    (match (exCompiled exScale).file with
      | .protocol p => p.types.all firstLogical
      | _ => false) &&
    decide (exWritten exScale = exScaleDoc)) = true := by decide +kernel

theorem exScaleType_other (lt : LogicalType) : ¬ LogicalDoc exScaleType .bytes lt := by
  intro h
  cases h with
  | simple h1 _ h2 =>
    have : exScaleType.get? "logicalType" = some (.str "decimal") := rfl
    rw [this] at h1
    cases lt <;> first | exact absurd rfl (h2 _ _) | simp [LogicalType.name] at h1
  | decimal _ _ h3 _ _ h4 h5 =>
    have e1 : exScaleType.get? "precision" = some (.num (.int 1)) := rfl
    have e2 : exScaleType.get? "scale" = some (.num (.int 2)) := rfl
    rw [e1] at h3
    rw [e2] at h4
    simp only [Option.some.injEq, Json.num.injEq, JNum.int.injEq, reduceCtorEq, false_and,
      false_or] at h3 h4
    omega

theorem sameDef_firstLogical {t t' : Schema} (h : SameDef t t') (hl : firstLogical t = true) :
    firstLogical t' = true := by
  cases h with
  | enum => cases hl
  | fixed => cases hl
  | record _ hf _ _ =>
    cases hf with
    | nil => cases hl
    | cons h1 _ =>
      have ht := h1.type
      revert hl ht
      rename_i f f' _ _ _
      cases f
      cases f'
      intro hl ht
      simp only [Field.schema] at ht
      cases ht <;> first | rfl | cases hl

theorem exScale_meaning {ss : List Schema} {ms : List (String × Message)}
    (h : ProtocolDoc exScaleDoc ss ms) :
    ∃ s, ss = [s] ∧ s ∈ definitions s ∧ firstLogical (outlineDef s) = false := by
  cases h with
  | @mk obj ns _ _ h1 h2 h3 =>
    rcases h2 with ⟨h2, _⟩ | ⟨l, h2, hs⟩
    · cases h2
    · injection h2 with h2
      injection h2 with h2
      subst h2
      cases hs with
      | cons hr hn =>
        cases hn
        obtain ⟨name, ns, doc, l, fs, al, -, -, i3, i4, -, rfl⟩ := doc_record_inv rfl hr
        injection i3 with i3
        injection i3 with i3
        subst i3
        cases i4 with
        | cons hn ht hty _ _ _ hrest =>
          injection ht with ht
          subst ht
          refine ⟨_, rfl, by simp [definitions], ?_⟩
          rcases doc_prim_inv (p := .bytes) rfl hty with ⟨_, rfl⟩ | ⟨_, _, rfl⟩ | ⟨lt, hl, _⟩
          · rfl
          · rfl
          · exact absurd hl (exScaleType_other lt)

/-- **Finding.** A decimal given by annotations may have a scale above its precision.  It is
compiled as a decimal, but what is written for it is not a decimal for Avro: the document does not
mean the declared types. -/
theorem C60_fails_decimal : ∃ out j p, Converts Builder.new (exReimportWorld exScale) 9 out j ∧
    out.file = .protocol p ∧ ∀ ss ms, ProtocolDoc j ss ms → ¬ DefineSame p.types ss := by
  have hk := exScale_checks
  simp only [Bool.and_eq_true, decide_eq_true_eq] at hk
  obtain ⟨⟨⟨k1, k2⟩, k3⟩, k4⟩ := hk
  have hconv : Converts Builder.new (exReimportWorld exScale) 9
      (exCompiled exScale) (exWritten exScale) := by
    unfold exCompiled exWritten
    exact converts_of_ok k1 k2
  generalize exCompiled exScale = out at *
  generalize exWritten exScale = j at *
  subst k4
  cases hp : out.file with
  | named ss => rw [hp] at k3; cases k3
  | schema s => rw [hp] at k3; cases k3
  | protocol p =>
    rw [hp] at k3
    simp only [List.all_eq_true] at k3
    refine ⟨out, _, p, hconv, hp, fun ss ms hd hs => ?_⟩
    obtain ⟨s, rfl, h1, h2⟩ := exScale_meaning hd
    obtain ⟨t, h3, h4⟩ := hs.types s (by simpa using h1)
    rw [sameDef_firstLogical h4 (k3 t h3)] at h2
    cases h2

end

end Avdl.Props
