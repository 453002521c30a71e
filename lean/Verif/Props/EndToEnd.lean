import Verif.Lemmas.EndToEnd
import Verif.Props.CompileApi
import Verif.Props.Order
/-!
# C03, C04, C06, C07, C26 from the source text to the document

The theorems of `Props/Output.lean` assume a coherent type table (`TableOk`, `ProtocolOk`).  Here
these conditions are derived for whatever a compilation produces, for every file system, builder
and input; what remains are the conditions of `Spec/Coherent.lean` on namespaces (and that imported
JSON messages do not define types in-line).
-/

namespace Avdl.Props
open Spec

section
variable [CharTables] [FloatTables] [CaseTables]

/-- `out` is what a call of one of the conversion functions has compiled, `j` the document it
returns. -/
inductive Converts (b : Builder) (w : World) (fuel : Nat) (out : CompileOutput) (j : Json) : Prop
  | file {path res b' b''} : b.compileFile w fuel path = (.ok out, b') →
      b.convert w fuel path = (.ok res, b'') → res.json = j → Converts b w fuel out j
  | text {text name res b' b''} : b.compileStr w fuel text name = (.ok out, b') →
      b.convertStr w fuel text name = (.ok res, b'') → res.json = j → Converts b w fuel out j

/-- `out` is what extracting from a text or a file (not a directory) has compiled, `docs` the
schemas returned. -/
inductive Extracts (b : Builder) (w : World) (fuel : Nat) (out : CompileOutput)
    (docs : List (String × Json)) : Prop
  | file {path res b' b''} : w.isDir path = false → b.compileFile w fuel path = (.ok out, b') →
      b.extract w fuel path = (.ok res, b'') → res.schemas = docs → Extracts b w fuel out docs
  | text {text name res b' b''} : b.compileStr w fuel text name = (.ok out, b') →
      b.extractStr w fuel text name = (.ok res, b'') → res.schemas = docs →
      Extracts b w fuel out docs

theorem compileFile_ok {b b' : Builder} {w : World} {fuel : Nat} {p : Path} {out : CompileOutput}
    (h : b.compileFile w fuel p = (.ok out, b')) :
    ∃ text dir path, b.compile w fuel text p dir path = (.ok out, b') := by
  unfold Builder.compileFile at h
  cases hr : w.read p with
  | none => rw [hr] at h; injection h with h _; cases h
  | some text => rw [hr] at h; exact ⟨_, _, _, h⟩

theorem compileStr_ok {b b' : Builder} {w : World} {fuel : Nat} {text name : String}
    {out : CompileOutput} (h : b.compileStr w fuel text name = (.ok out, b')) :
    ∃ dir, b.compile w fuel text name dir none = (.ok out, b') := by
  unfold Builder.compileStr at h
  cases hr : w.cwd with
  | none => rw [hr] at h; injection h with h _; cases h
  | some dir => rw [hr] at h; exact ⟨_, h⟩

omit [CharTables] [FloatTables] [CaseTables] in
theorem convertImpl_ok {fuel : Nat} {b b'' : Builder} {out : CompileOutput} {res : IdlOutput}
    (h : convertImpl fuel (.ok out, b) = (.ok res, b'')) : outputJson fuel out = some res.json := by
  unfold convertImpl at h
  simp only at h
  split at h
  · injection h with h _; cases h
  · cases hj : outputJson fuel out with
    | none => rw [hj] at h; injection h with h _; cases h
    | some j => rw [hj] at h; injection h with h _; injection h with h; rw [← h]

theorem Converts.compiled {b : Builder} {w : World} {fuel : Nat} {out : CompileOutput} {j : Json}
    (h : Converts b w fuel out j) : (∃ text name dir path b',
      b.compile w fuel text name dir path = (.ok out, b')) ∧ outputJson fuel out = some j := by
  cases h with
  | file h1 h2 h3 =>
    obtain ⟨t, d, p, h⟩ := compileFile_ok h1
    rw [Builder.convert, h1] at h2
    exact ⟨⟨t, _, d, p, _, h⟩, by rw [convertImpl_ok h2, h3]⟩
  | text h1 h2 h3 =>
    obtain ⟨d, h⟩ := compileStr_ok h1
    rw [Builder.convertStr, h1] at h2
    exact ⟨⟨_, _, d, none, _, h⟩, by rw [convertImpl_ok h2, h3]⟩

theorem Extracts.compiled {b : Builder} {w : World} {fuel : Nat} {out : CompileOutput}
    {docs : List (String × Json)} (h : Extracts b w fuel out docs) : (∃ text name dir path b',
      b.compile w fuel text name dir path = (.ok out, b')) ∧
      extractSchemas fuel out.registry.schemas = some docs := by
  have key : ∀ {b' b'' : Builder} {res : SchemataOutput},
      extractFrom fuel (.ok out, b') = (.ok res, b'') → res.schemas = docs →
      extractSchemas fuel out.registry.schemas = some docs := by
    intro b' b'' res h2 h3
    unfold extractFrom extractImpl at h2
    simp only at h2
    cases hj : extractSchemas fuel out.registry.schemas with
    | none => rw [hj] at h2; injection h2 with h2 _; cases h2
    | some j => rw [hj] at h2; injection h2 with h2 _; injection h2 with h2; rw [← h3, ← h2]
  cases h with
  | file hd h1 h2 h3 =>
    obtain ⟨t, d, p, h⟩ := compileFile_ok h1
    rw [Builder.extract, h1] at h2
    simp only [hd, Bool.false_eq_true, if_false] at h2
    exact ⟨⟨t, _, d, p, _, h⟩, key h2 h3⟩
  | text h1 h2 h3 =>
    obtain ⟨d, h⟩ := compileStr_ok h1
    rw [Builder.extractStr, h1] at h2
    exact ⟨⟨_, _, d, none, _, h⟩, key h2 h3⟩

/-- The namespaces of what has been compiled are not mixed (see `Spec/Coherent.lean`). -/
def CoherentOutput (out : CompileOutput) : Prop :=
  match out.file with
  | .protocol p => CoherentProtocol p
  | _ => Coherent out.registry.schemas

/-- The definitions and references an Avro parser meets in the document. -/
def documentEvents (out : CompileOutput) (j : Json) : List Ev :=
  match out.file with
  | .protocol _ => protocolEvents j
  | _ => events "" j

/-- The parser goes through the document of a conversion. -/
theorem convert_run {b : Builder} {w : World} {fuel : Nat} {out : CompileOutput} {j : Json}
    (h : Converts b w fuel out j) (hc : CoherentOutput out) :
    ∃ K, run (documentEvents out j) [] = some K ∧
      ((∃ p, out.file = .protocol p) → ∀ x, x ∈ K ↔ x ∈ out.registry.names) := by
  obtain ⟨⟨text, name, dir, path, b', h⟩, hj⟩ := h.compiled
  unfold CoherentOutput at hc
  unfold outputJson at hj
  unfold documentEvents
  cases hf : out.file with
  | named ss => rw [hf] at hj; cases hj
  | protocol p =>
    rw [hf] at hc hj
    have hp := compile_protocolOk h hf hc
    obtain ⟨K, h1, h2⟩ := protocol_events hp hj
    refine ⟨K, h1, fun _ x => ?_⟩
    rw [h2, (compile_protocol h hf).1, fullNames_registry h]
  | schema s =>
    rw [hf] at hc hj
    simp only at hc hj
    have hT := compile_tableOk h (d := none) hc (fun hne => absurd rfl hne)
    obtain ⟨_, hs⟩ := compile_schema h hf hc
    cases hser : schemaToJson (buildLookup out.registry.schemas none) fuel s none [] with
    | none => rw [hser] at hj; cases hj
    | some r =>
      obtain ⟨j', K⟩ := r
      rw [hser] at hj
      simp only [Option.map_some, Option.some.injEq] at hj
      subst hj
      refine ⟨K, (ser_events _ hT.lookupOk fuel).1 s none [] j' K ?_ hser, by simp⟩
      rw [hT.has_eq]; exact hs

/-- **C04, end to end.**  A one-pass Avro parser never meets an undefined name in a document the
compiler returns. -/
theorem C04_convert_partial {b : Builder} {w : World} {fuel : Nat} {out : CompileOutput} {j : Json}
    (h : Converts b w fuel out j) (hc : CoherentOutput out) :
    ∀ before after x, documentEvents out j = before ++ .use x :: after → x ∈ defs before := by
  obtain ⟨K, hr, _⟩ := convert_run h hc
  intro before after x hs
  simpa using run_use hr hs

/-- **C03, end to end.**  No full name is defined twice in a document the compiler returns. -/
theorem C03_convert_partial {b : Builder} {w : World} {fuel : Nat} {out : CompileOutput} {j : Json}
    (h : Converts b w fuel out j) (hc : CoherentOutput out) :
    (defs (documentEvents out j)).Nodup := by
  obtain ⟨K, hr, _⟩ := convert_run h hc
  have h1 := run_nodup List.nodup_nil hr
  rw [run_defs hr, List.append_nil] at h1
  exact (List.reverse_perm _).nodup_iff.mp h1

/-- **C06, end to end.**  The document of a protocol defines exactly the declared and imported
types. -/
theorem C06_convert_partial {b : Builder} {w : World} {fuel : Nat} {out : CompileOutput} {j : Json}
    {p : Protocol} (h : Converts b w fuel out j) (hp : out.file = .protocol p)
    (hc : CoherentProtocol p) : (defs (protocolEvents j)).Perm out.registry.names := by
  have hc' : CoherentOutput out := by unfold CoherentOutput; rw [hp]; exact hc
  obtain ⟨K, hr, hK⟩ := convert_run h hc'
  have hnd := C03_convert_partial h hc'
  have hd : documentEvents out j = protocolEvents j := by unfold documentEvents; rw [hp]
  rw [hd] at hr hnd
  have hrd := run_defs hr
  rw [List.append_nil] at hrd
  obtain ⟨⟨text, name, dir, path, b', hcomp⟩, _⟩ := h.compiled
  have hdist := compile_distinct hcomp
  rw [fullNames_registry hcomp] at hdist
  refine (List.perm_ext_iff_of_nodup hnd hdist).mpr fun x => ?_
  rw [← List.mem_reverse, ← hrd]
  exact hK ⟨p, hp⟩ x

/-- **C07, end to end.**  Extraction returns one schema per declared or imported type, in the order
of registration and under its simple name; each is the definition of its type, and self-contained. -/
theorem C07_extract_partial {b : Builder} {w : World} {fuel : Nat} {out : CompileOutput}
    {docs : List (String × Json)} (h : Extracts b w fuel out docs)
    (hc : Coherent out.registry.schemas) :
    docs.map (fun nj => some nj.1) = out.registry.map (fun kt => kt.2.name?) ∧
    ∀ kj ∈ out.registry.names.zip (docs.map Prod.snd),
      (∃ evs, events "" kj.2 = .defn kj.1 :: evs) ∧
      ∀ before after x, events "" kj.2 = before ++ .use x :: after → x ∈ defs before := by
  obtain ⟨⟨text, name, dir, path, b', hcomp⟩, he⟩ := h.compiled
  have hT := compile_tableOk hcomp (d := none) hc (fun hne => absurd rfl hne)
  obtain ⟨h1, h2⟩ := C07_extracted_self_contained_partial _ hT fuel docs he
  refine ⟨?_, ?_⟩
  · rw [h1]; simp [Registry.schemas, Function.comp_def]
  · intro kj hkj
    have hnames : out.registry.names = out.registry.schemas.map fun t => t.fullName?.getD "" := by
      rw [← fullNames_registry hcomp]
      have hflat := hT.flat
      generalize out.registry.schemas = l at hflat
      induction l with
      | nil => rfl
      | cons t ts ih =>
        obtain ⟨x, hx⟩ := IsNamed_fullName (Schema.isNamed_of_flatDef (hflat t (by simp)))
        simp only [fullNames, List.filterMap_cons, hx, List.map_cons, Option.getD_some,
          List.cons.injEq, true_and]
        exact ih fun t ht => hflat t (by simp [ht])
    rw [hnames, List.zip_map_left] at hkj
    obtain ⟨tj, htj, rfl⟩ := List.mem_map.mp hkj
    obtain ⟨g1, g2⟩ := h2 tj htj
    refine ⟨g1, fun before after x hs => ?_⟩
    obtain ⟨K, hK⟩ := Option.isSome_iff_exists.mp g2
    simpa using run_use hK hs

/-! ## When the conditions hold -/

/-- If all declared and imported types are in a namespace, what has been compiled is coherent,
provided imported JSON protocols do not define types inside messages. -/
theorem coherent_of_namespaced {b b' : Builder} {w : World} {fuel : Nat} {text name : String}
    {dir : Path} {path : Option Path} {out : CompileOutput}
    (h : b.compile w fuel text name dir path = (.ok out, b'))
    (hn : ∀ x ∈ out.registry.names, '.' ∈ x.toList)
    (hm : ∀ p, out.file = .protocol p → ∀ nm ∈ p.messages, nm.2.noDefs) :
    Coherent out.registry.schemas ∧ CoherentOutput out := by
  have hn' : ∀ x ∈ fullNames out.registry.schemas, ¬ DotFree x := by
    rw [fullNames_registry h]
    intro x hx hd; exact hd (hn x hx)
  have hc : Coherent out.registry.schemas := by
    refine .of_namespaced hn' ?_
    rw [fullNames_registry h]
    exact (compile_refs h).1
  refine ⟨hc, ?_⟩
  unfold CoherentOutput
  cases hf : out.file with
  | protocol p =>
    have ht := (compile_protocol h hf).1
    exact ⟨by rw [ht]; exact hc, fun _ => by rw [ht]; exact hn', hm p hf⟩
  | schema s => exact hc
  | named ss => exact hc

/-- The events of a compilation include no import of JSON. -/
def NoJson (es : List Event) : Prop := ∀ ev ∈ es, match ev with
  | .schema .. | .protocol .. => False
  | _ => True

/-- Without JSON imports messages do not define types, and no type is called like a primitive. -/
theorem without_json {b b' : Builder} {w : World} {fuel : Nat} {text name : String}
    {dir : Path} {path : Option Path} {out : CompileOutput}
    (h : b.compile w fuel text name dir path = (.ok out, b'))
    (hj : ∀ file decls ws es seen, parseIdl w text name = .ok (file, decls, ws) →
      Trace w b.importDirs dir path.toList decls es (.finished seen) → NoJson es) :
    (∀ p, out.file = .protocol p → ∀ nm ∈ p.messages, nm.2.noDefs) ∧
    ∀ x ∈ out.registry.names, x ∉ primitiveTypeNames := by
  obtain ⟨file, decls, ws, es, seen, k, h1, h2, _, h4, _, _, h7, _⟩ := compile_ok h
  have hev := h2.out (parseIdl_out h1).decls
  have hnj := hj _ _ _ _ _ h1 h2
  constructor
  · intro p hp nm hnm
    rw [hp] at h7
    cases file with
    | schema s => exact h7.elim
    | named ss => exact h7.elim
    | protocol q =>
      simp only at h7
      rw [h7] at hnm
      simp only at hnm
      obtain ⟨a1, a2⟩ := extendMessages_spec (es.flatMap Event.messages) [] (by simp)
      obtain ⟨_, b2⟩ := extendMessages_spec q.messages _ a1
      rcases (b2 nm.1 nm.2).mp hnm with hl | ⟨_, hl⟩
      · exact ((parseIdl_out h1).messages (nm.1, nm.2) (lastEntry_mem hl)).2
      · rcases (a2 nm.1 nm.2).mp hl with hl | ⟨_, hl⟩
        · obtain ⟨ev, hm, hmm⟩ := List.mem_flatMap.mp (lastEntry_mem hl)
          have ho := hev ev hm
          have hn := hnj ev hm
          cases ev with
          | type | schema => simp [Event.messages] at hmm
          | protocol => exact hn.elim
          | idl p as file ws =>
            obtain ⟨decls, hf⟩ := ho
            exact (hf.messages _ hmm).2
        · cases hl
  · intro x hx hp
    obtain ⟨kt, hkt, rfl⟩ := List.mem_map.mp hx
    have hok := C08_registry_ok (es.flatMap Event.types)
    rw [← h4] at hok
    have hfull := (hok kt hkt).2
    rw [h4] at hkt
    obtain ⟨ev, hm, hmm⟩ := List.mem_flatMap.mp (mem_registerAll hkt)
    have ho := hev ev hm
    have hn := hnj ev hm
    have key : ∀ n (ns : Option String), kt.1 = makeFullName n ns → DotFree n →
        isInvalidTypeName n = false → False := by
      intro n ns he hd hi
      have hns : nsStr ns = "" := by
        rw [← dotFree_makeFullName hd, ← he]
        exact (by decide : ∀ x ∈ primitiveTypeNames, DotFree x) _ hp
      rw [makeFullName_null hns] at he
      rw [he] at hp
      simp [isInvalidTypeName, hp] at hi
    cases ev with
    | idl => simp [Event.types] at hmm
    | schema => exact hn.elim
    | protocol => exact hn.elim
    | type s sp spans =>
      simp only [Event.types, List.mem_singleton] at hmm
      rw [hmm] at hfull
      cases (show NamedOut s from ho) with
      | record n ns _ _ _ _ _ hi hd => exact key n ns (Option.some.inj hfull).symm hd hi
      | enum n ns _ _ _ _ _ hi hd => exact key n ns (Option.some.inj hfull).symm hd hi
      | fixed n ns _ _ _ _ hi hd => exact key n ns (Option.some.inj hfull).symm hd hi

/-- **C03, C04, C06, C07 without JSON imports and with one namespace policy.**  If only IDL files
are imported, and the declared and imported types are either all in a namespace, or all in none
(the protocol included), then what has been compiled is coherent: no hypothesis on types, messages,
annotations or defaults remains. -/
theorem coherent_of_idl {b b' : Builder} {w : World} {fuel : Nat} {text name : String}
    {dir : Path} {path : Option Path} {out : CompileOutput}
    (h : b.compile w fuel text name dir path = (.ok out, b'))
    (hj : ∀ file decls ws es seen, parseIdl w text name = .ok (file, decls, ws) →
      Trace w b.importDirs dir path.toList decls es (.finished seen) → NoJson es)
    (hn : (∀ x ∈ out.registry.names, '.' ∈ x.toList) ∨
      ((∀ x ∈ out.registry.names, '.' ∉ x.toList) ∧
        ∀ p, out.file = .protocol p → p.ns.getD "" = "")) :
    Coherent out.registry.schemas ∧ CoherentOutput out := by
  obtain ⟨hm, hp⟩ := without_json h hj
  rcases hn with hn | ⟨hn, hns⟩
  · exact coherent_of_namespaced h hn hm
  · have hc : Coherent out.registry.schemas := by
      refine .of_unnamespaced ?_ ?_
      · rw [fullNames_registry h]; exact hn
      · rw [fullNames_registry h]; exact hp
    refine ⟨hc, ?_⟩
    unfold CoherentOutput
    cases hf : out.file with
    | protocol p =>
      have ht := (compile_protocol h hf).1
      exact ⟨by rw [ht]; exact hc, fun hne => absurd (hns p hf) hne, hm p hf⟩
    | schema s => exact hc
    | named ss => exact hc

/-! ## C26 -/

/-- **C26, end to end.**  The document of a compiled protocol is the same for every order in which
hash maps are iterated: any rearrangement of its messages and annotations gives the same JSON. -/
theorem C26_convert_partial {b : Builder} {w : World} {fuel : Nat} {out : CompileOutput} {j : Json}
    {p p' : Protocol} (h : Converts b w fuel out j) (hp : out.file = .protocol p)
    (hm : ∀ nm ∈ p.messages, nm.2.noDefs) (hr : ReorderedProtocol p p') :
    protocolToJson fuel p' = some j := by
  obtain ⟨⟨text, name, dir, path, b', hcomp⟩, hj⟩ := h.compiled
  unfold outputJson at hj
  rw [hp] at hj
  simp only at hj
  rw [← hj]
  refine (C26_protocol_partial p p' hr ?_ hm fuel).symm
  rw [(compile_protocol hcomp hp).1]
  exact fun t ht => (compile_types hcomp t ht).2

end

/-! ## An example -/

section
attribute [local instance] asciiTables exFloats exCases

/-- `/in` is the protocol `P` in the namespace `p` with the mutually recursive records `A { B b; }`
and `B { array<A> as; }`, an import of `/s`, and a message `A get(q.S s)`; `/s` is a JSON schema
`q.S` with an enum defined inside. -/
private def exE2eWorld : World where
  join := fun d f => d ++ f
  parent := fun _ => some "/"
  fileName := fun p => some p
  exists_ := fun p => p == "/in" || p == "/s"
  canonicalize := fun p => some p
  cwd := some "/"
  isDir := fun _ => false
  walk := fun _ => []
  read := fun p => some p
  parse := fun _ _ => some ⟨[⟨.other, "protocol"⟩], [],
    .protocol ⟨0, [⟨"namespace", .str "\"p\"", none⟩], "P",
      [.named (.record ⟨0, [], false, "A", [⟨0, .mk [] (.named "B" none true) none,
        [⟨0, [], "b", none, none, none, none⟩]⟩], none⟩) none,
       .import_ ⟨.schema, "\"s\"", none⟩,
       .named (.record ⟨0, [⟨"note", .int "7" none, none⟩], false, "B",
        [⟨0, .mk [] (.array (.mk [] (.named "A" none false) none)) none,
          [⟨0, [], "as", none, none, none, none⟩]⟩], none⟩) none,
       .message ⟨0, [], some (.named "A" none false), "get",
        [⟨0, .mk [] (.named "q.S" none false) none, ⟨0, [], "s", none, none, none, none⟩, none⟩], false,
        [], none⟩], none⟩, []⟩
  parseJson := fun _ => some (.obj [("fields", .arr [.obj [("name", .str "e"),
      ("type", .obj [("name", .str "E"), ("symbols", .arr [.str "X"]), ("type", .str "enum")])]]),
    ("name", .str "q.S"), ("type", .str "record")])

/-- What a call has compiled. -/
def compiledOr (r : Except CompileErr CompileOutput × Builder) : CompileOutput :=
  match r.1 with
  | .ok out => out
  | .error _ => ⟨.named [], [], []⟩

/-- The document of a call. -/
def jsonOr (r : Except CompileErr IdlOutput × Builder) : Json :=
  match r.1 with
  | .ok res => res.json
  | .error _ => .null

theorem converts_of_ok {b : Builder} {w : World} {fuel : Nat} {path : Path}
    (h1 : (b.compileFile w fuel path).1.toBool = true) (h2 : (b.convert w fuel path).1.toBool = true) :
    Converts b w fuel (compiledOr (b.compileFile w fuel path)) (jsonOr (b.convert w fuel path)) := by
  cases hc : b.compileFile w fuel path with
  | mk r b' =>
    cases hv : b.convert w fuel path with
    | mk r2 b'' =>
      rw [hc] at h1
      rw [hv] at h2
      cases r with
      | error e => cases h1
      | ok out =>
        cases r2 with
        | error e => cases h2
        | ok res => exact .file hc hv rfl

private def exOut : CompileOutput := compiledOr (Builder.new.compileFile exE2eWorld 9 "/in")
private def exDoc : Json := jsonOr (Builder.new.convert exE2eWorld 9 "/in")

private theorem exE2e_converts : Converts Builder.new exE2eWorld 9 exOut exDoc :=
  converts_of_ok (by decide +kernel) (by decide +kernel)

/-- A check of `Message.noDefs`. -/
def noDefsCheck (f : IdlFile) : Bool :=
  match f with
  | .protocol p => p.messages.all fun nm => nm.2.request.all (fun f => f.schema.noDefs) &&
      nm.2.response.noDefs && (nm.2.errors.getD []).all fun s => s.noDefs
  | _ => true

theorem noDefs_of_check {f : IdlFile} (h : noDefsCheck f = true) (p : Protocol)
    (hp : f = .protocol p) : ∀ nm ∈ p.messages, nm.2.noDefs := by
  subst hp
  intro nm hnm
  have h := List.all_eq_true.mp h nm hnm
  simp only [Bool.and_eq_true, List.all_eq_true] at h
  refine ⟨h.1.1, h.1.2, fun es he s hs => h.2 s ?_⟩
  rw [he]; exact hs

private theorem exE2e_coherent : Coherent exOut.registry.schemas ∧ CoherentOutput exOut := by
  obtain ⟨⟨text, name, dir, path, b', h⟩, _⟩ := exE2e_converts.compiled
  refine coherent_of_namespaced h ?_ (noDefs_of_check (by decide +kernel))
  have : exOut.registry.names = ["p.A", "q.E", "q.S", "p.B"] := by decide +kernel
  rw [this]; decide

/-- Non-vacuity: the hypotheses are met, and the document has the definitions and references. -/
example : documentEvents exOut exDoc =
    [.defn "p.A", .defn "p.B", .use "p.A", .defn "q.E", .defn "q.S", .use "q.E", .use "q.S",
      .use "p.A"] := by decide +kernel

example : (defs (documentEvents exOut exDoc)).Nodup :=
  C03_convert_partial exE2e_converts exE2e_coherent.2

end

end Avdl.Props
