import Verif.Spec.Legal
import Verif.Props.Hermetic
/-!
# C63: what is compiled obeys the rules of Avro
-/

namespace Avdl.Props
open Spec

/-- No definition occurs in a type of the source. -/
theorem typeOut_noDefs {ns : Option String} {s : Schema} (h : TypeOut ns s) :
    ∀ t, Occurs t s → ¬ t.IsNamed := by
  induction h with
  | prim p => intro t ho; cases ho; exact id
  | annotated k ps _ => intro t ho; cases ho; exact id
  | logical lt ps _ _ => intro t ho; cases ho; exact id
  | ref n ns' sp _ => intro t ho; cases ho; exact id
  | array i ps _ _ ih =>
    intro t ho
    cases ho with
    | self => exact id
    | items ho => exact ih t ho
  | map i ps _ _ ih =>
    intro t ho
    cases ho with
    | self => exact id
    | values ho => exact ih t ho
  | union ts _ _ _ ih =>
    intro t ho
    cases ho with
    | self => exact id
    | branch hm ho => exact ih _ hm t ho
  | optional i _ _ _ ih =>
    intro t ho
    cases ho with
    | self => exact id
    | branch hm ho =>
      rcases List.mem_cons.mp hm with rfl | hm
      · cases ho; exact id
      · rw [List.mem_singleton] at hm
        subst hm
        exact ih t ho

theorem fixOptional_noDefs {s : Schema} {d : Option Json} (h : ∀ t, Occurs t s → ¬ t.IsNamed) :
    ∀ t, Occurs t (fixOptional s d) → ¬ t.IsNamed := by
  intro t ho
  unfold fixOptional at ho
  split at ho
  · rename_i x y
    split at ho
    · exact h t ho
    · exact h t ho
    · cases ho with
      | self => exact id
      | branch hm ho =>
        refine h t (.branch ?_ ho)
        simp only [List.mem_cons, List.not_mem_nil, or_false] at hm ⊢
        exact hm.symm
  · exact h t ho

section
variable [CharTables] [FloatTables] [CaseTables]

omit [FloatTables] [CaseTables] in
theorem legal_of_noDefs {names : String → Prop} {s : Schema} (h : ∀ t, Occurs t s → ¬ t.IsNamed)
    (hu : ∀ ts b, Occurs (.union ts b) s → LegalUnion ts) : LegalSchema names s := by
  intro t ho
  cases t with
  | record => exact absurd trivial (h _ ho)
  | enum => exact absurd trivial (h _ ho)
  | fixed => exact absurd trivial (h _ ho)
  | union ts b => exact hu ts b ho
  | _ => trivial

omit [FloatTables] [CaseTables] in
theorem typeOut_legal {names : String → Prop} {ns : Option String} {s : Schema}
    (h : TypeOut ns s) : LegalSchema names s :=
  legal_of_noDefs (typeOut_noDefs h) (typeOut_unions h)

omit [FloatTables] [CaseTables] in
theorem fieldOut_legal {names : String → Prop} {ns : Option String} {f : Field}
    (h : FieldOut ns f) : LegalSchema names f.schema := by
  obtain ⟨t, ht, he⟩ := h.type
  rw [he]
  exact legal_of_noDefs (fixOptional_noDefs (typeOut_noDefs ht))
    (fixOptional_unions (typeOut_unions ht))

omit [FloatTables] [CaseTables] in
theorem messageOut_legal {names : String → Prop} {ns : Option String} {m : Message}
    (h : MessageOut ns m) (hn : ∀ f ∈ m.request, names f.name) : LegalMessage names m where
  parameters := ⟨h.distinct, hn⟩
  request f hf := fieldOut_legal (h.request f hf)
  response := typeOut_legal h.response
  errors es he s hs := by
    obtain ⟨i, sp, rfl⟩ := h.errors es he s hs
    exact typeOut_legal (refTo_out i sp ns)
  oneWay := h.oneWay

omit [FloatTables] [CaseTables] in
theorem namedOut_legal {names : String → Prop} {s : Schema} (h : NamedOut s) (ha : Acceptable s)
    (hf : ∀ n ns d fs e al ps, s = .record n ns d fs e al ps → ∀ f ∈ fs, names f.name)
    (hs : ∀ n ns d sy df al ps, s = .enum n ns d sy df al ps → ∀ x ∈ sy, names x) :
    LegalSchema names s := by
  obtain ⟨n0, ns0, hd, hl⟩ := ha
  intro t ho
  cases h with
  | record n ns doc fs er al ps _ _ hfs hnd _ =>
    cases hd
    cases ho with
    | self => exact ⟨hl, hnd, hf _ _ _ _ _ _ _ rfl⟩
    | field hm ho => exact fieldOut_legal (hfs _ hm) t ho
  | enum n ns doc sy df al ps _ _ hnd hdf _ =>
    cases hd
    cases ho
    exact ⟨hl, hnd, hs _ _ _ _ _ _ _ rfl, hdf⟩
  | fixed n ns doc sz al ps _ _ _ _ =>
    cases hd
    cases ho
    exact hl

theorem registered_acceptable {b b' : Builder} {w : World} {fuel : Nat} {text name : String}
    {dir : Path} {path : Option Path} {out : CompileOutput}
    (h : b.compile w fuel text name dir path = (.ok out, b')) {kt : String × Schema}
    (hk : kt ∈ out.registry) : Acceptable kt.2 := by
  obtain ⟨file, decls, ws, es, seen, k, h1, h2, _, h4, _⟩ := compile_ok h
  rw [h4] at hk
  obtain ⟨n, ns, a1, -, a2⟩ := C09_registered_names_legal _ kt.1 kt.2 hk
  exact ⟨n, ns, a1, a2⟩

/-- **C63.** Everything compiled from IDL files obeys the rules of Avro: types have legal names and
namespaces, no record has two fields and no enum two symbols of one name, a default symbol is one of
the symbols, unions are legal, parameters have different names, and one-way messages return nothing.
Names of fields, parameters and symbols are those written. -/
theorem C63_output_partial {b b' : Builder} {w : World} {fuel : Nat} {text name : String}
    {dir : Path} {path : Option Path} {out : CompileOutput}
    (h : b.compile w fuel text name dir path = (.ok out, b'))
    (hj : ∀ file decls ws es seen, parseIdl w text name = .ok (file, decls, ws) →
      Trace w b.importDirs dir path.toList decls es (.finished seen) → NoJson es) :
    LegalOutput (InnerName out) out := by
  obtain ⟨file, decls, ws, es, seen, k, h1, h2, _, h4, _, _, h7, _⟩ := compile_ok h
  have hev := h2.out (parseIdl_out h1).decls
  have hnj := hj _ _ _ _ _ h1 h2
  refine ⟨fun kt hk => ?_, fun p hp nm hnm => ?_, fun s hs => ?_⟩
  · have hk' := hk
    rw [h4] at hk'
    obtain ⟨ev, hm, hmm⟩ := List.mem_flatMap.mp (mem_registerAll hk')
    have ho := hev ev hm
    have hn := hnj ev hm
    cases ev with
    | idl => simp [Event.types] at hmm
    | schema => exact hn.elim
    | protocol => exact hn.elim
    | type s sp spans =>
      simp only [Event.types, List.mem_singleton] at hmm
      refine namedOut_legal (by rw [hmm]; exact ho) (registered_acceptable h hk) ?_ ?_
      · intro n ns d fs e al ps he f hf
        exact .field hk (by rw [he]; exact .self) hf rfl
      · intro n ns d sy df al ps he x hx
        exact .symbol hk (by rw [he]; exact .self) hx
  · have hn : ∀ f ∈ nm.2.request, InnerName out f.name := fun f hf => .parameter hp hnm hf rfl
    suffices ∃ ns, MessageOut ns nm.2 by
      obtain ⟨ns, hm⟩ := this
      exact messageOut_legal hm hn
    have fileMsgs : ∀ (file : IdlFile) (decls : List DeclItem), FileOut (file, decls) →
        ∀ nm ∈ file.messages, ∃ ns, MessageOut ns nm.2 := by
      intro file decls hf nm hm
      cases file with
      | protocol q => exact ⟨_, (hf.protocol q rfl).2.2.2.2.2 nm hm⟩
      | schema s => cases hm
      | named ss => cases hm
    rw [hp] at h7
    cases file with
    | schema s => exact h7.elim
    | named ss => exact h7.elim
    | protocol q =>
      simp only at h7
      rw [h7] at hnm
      simp only at hnm
      obtain ⟨a1, a2⟩ := extendMessages_spec (es.flatMap Event.messages) [] (by simp)
      obtain ⟨_, b2⟩ := extendMessages_spec q.messages _ a1
      rcases (b2 nm.1 nm.2).mp hnm with hl | ⟨_, hl⟩
      · exact fileMsgs _ _ (parseIdl_out h1) (nm.1, nm.2) (lastEntry_mem hl)
      · rcases (a2 nm.1 nm.2).mp hl with hl | ⟨_, hl⟩
        · obtain ⟨ev, hm, hmm⟩ := List.mem_flatMap.mp (lastEntry_mem hl)
          have ho := hev ev hm
          have hn := hnj ev hm
          cases ev with
          | type | schema => simp [Event.messages] at hmm
          | protocol => exact hn.elim
          | idl p as file ws =>
            obtain ⟨decls, hf⟩ := ho
            exact fileMsgs _ _ hf _ hmm
        · cases hl
  · rw [hs] at h7
    cases file with
    | protocol q => exact h7.elim
    | named ss => exact h7.elim
    | schema s' =>
      simp only at h7
      subst h7
      obtain ⟨ns, ht⟩ := (parseIdl_out h1).schema s rfl
      exact typeOut_legal ht

omit [FloatTables] [CaseTables] in
theorem legalSchema_mono {N N' : String → Prop} (hN : ∀ x, N x → N' x) {s : Schema}
    (h : LegalSchema N s) : LegalSchema N' s := by
  intro t ho
  have := h t ho
  cases t with
  | record => exact ⟨this.1, this.2.1, fun f hf => hN _ (this.2.2 f hf)⟩
  | enum => exact ⟨this.1, this.2.1, fun f hf => hN _ (this.2.2.1 f hf), this.2.2.2⟩
  | _ => exact this

/-- **C63, names.** If moreover the names written for fields, parameters and symbols are legal, all
rules are obeyed. -/
theorem C63_legal_partial {b b' : Builder} {w : World} {fuel : Nat} {text name : String}
    {dir : Path} {path : Option Path} {out : CompileOutput}
    (h : b.compile w fuel text name dir path = (.ok out, b'))
    (hj : ∀ file decls ws es seen, parseIdl w text name = .ok (file, decls, ws) →
      Trace w b.importDirs dir path.toList decls es (.finished seen) → NoJson es)
    (hn : ∀ x, InnerName out x → LegalName x) : LegalOutput LegalName out := by
  obtain ⟨h1, h2, h3⟩ := C63_output_partial h hj
  refine ⟨fun kt hk => legalSchema_mono hn (h1 kt hk), fun p hp nm hm => ?_, fun s hs => legalSchema_mono hn (h3 s hs)⟩
  obtain ⟨a, b, c, d, e⟩ := h2 p hp nm hm
  exact ⟨⟨a.1, fun f hf => hn _ (a.2 f hf)⟩, fun f hf => legalSchema_mono hn (b f hf), legalSchema_mono hn c,
    fun es he s hs => legalSchema_mono hn (d es he s hs), e⟩

/-- **C63, imported types.** The names and namespaces of types are legal wherever they come from. -/
theorem C63_type_names {b b' : Builder} {w : World} {fuel : Nat} {text name : String}
    {dir : Path} {path : Option Path} {out : CompileOutput}
    (h : b.compile w fuel text name dir path = (.ok out, b')) :
    ∀ kt ∈ out.registry, ∃ n ns, DefinesType kt.2 n ns ∧ kt.1 = makeFullName n ns ∧
      LegalName n ∧ LegalNamespace ns := by
  obtain ⟨file, decls, ws, es, seen, k, h1, h2, _, h4, _⟩ := compile_ok h
  intro kt hk
  rw [h4] at hk
  exact C09_registered_names_legal _ kt.1 kt.2 hk

end

/-! ## Example -/

section
variable [CharTables] [FloatTables] [CaseTables]

/-- A file without imports. -/
theorem noJson_of_alone {w : World} {dirs : List Path} {dir : Path} {seen : List Path}
    {items : List DeclItem} {es : List Event} {e : Ending} (h : Trace w dirs dir seen items es e)
    (hi : ∀ i, DeclItem.import_ i ∉ items) : NoJson es := by
  induction h with
  | nil | cut => intro ev hev; cases hev
  | type _ ih =>
    intro ev hev
    rcases List.mem_cons.mp hev with rfl | hev
    · trivial
    · exact ih (fun i hm => hi i (List.mem_cons_of_mem _ hm)) ev hev
  | _ => exact absurd List.mem_cons_self (hi _)

end

section
attribute [local instance] asciiTables exFloats exCases exJsonFloats

/-- A record, an enum and a message. -/
def exLawful : String :=
  "@namespace(\"p\")protocol P{enum E{X,Y}=X;record R{E e=\"X\";union{null,R,string}r=null;}R f(E e,int i);}"

/-- Its result. -/
def exLawfulResult : Except CompileErr CompileOutput × Builder :=
  Builder.new.compile (exReimportWorld fun _ => none) 9 exLawful "a" "" (some "a")

theorem exLawful_checks : exLawfulResult.1.toBool = true ∧
    importsOf (parseIdl (exReimportWorld fun _ => none) exLawful "a") = [] := by decide +kernel

attribute [local irreducible] Builder.compile parseIdl

/-- Non-vacuity: the file is compiled, and what is compiled obeys the rules. -/
example : ∃ out b', Builder.new.compile (exReimportWorld fun _ => none) 9 exLawful "a" "" (some "a") =
    (.ok out, b') ∧ LegalOutput (InnerName out) out := by
  obtain ⟨h1, h2⟩ := exLawful_checks
  unfold exLawfulResult at h1
  cases hr : Builder.new.compile (exReimportWorld fun _ => none) 9 exLawful "a" "" (some "a") with
  | mk r b' =>
    cases r with
    | error e => rw [hr] at h1; cases h1
    | ok out =>
      refine ⟨out, b', rfl, C63_output_partial hr ?_⟩
      intro file decls ws es seen hp ht
      exact noJson_of_alone ht fun i hi => absurd (import_of h2 hp hi) (by simp)

end

/-! ## Where the rules are not obeyed -/

section
attribute [local instance] asciiTables exFloats exCases exJsonFloats

/-- A field, a symbol, a parameter and a protocol with illegal names, and an illegal namespace. -/
def exUnlawful (p : Path) : Option String :=
  if p = "a" then some "protocol p-q{record R{int a-b;}enum E{A.B}void f(int c-d);}"
  else if p = "b" then some "@namespace(\"1 x\")protocol P{}"
  else if p = "c" then some "schema R;import schema \"r\";"
  else if p = "r" then some "{\"type\":\"record\",\"name\":\"R\",\"fields\":[{\"name\":\"a\",\"type\":\"int\"},{\"name\":\"a\",\"type\":[\"int\",\"int\"]}]}"
  else none

/-- The field names of records, the symbols of enums, the parameters of messages. -/
def innerNames (out : CompileOutput) : List (List String) :=
  (out.registry.schemas.map fun s => match s with
    | .record _ _ _ fs _ _ _ => fs.map Field.name
    | .enum _ _ _ sy _ _ _ => sy
    | _ => []) ++
  match out.file with
  | .protocol p => p.messages.map fun nm => nm.2.request.map Field.name
  | _ => []

/-- What is compiled from a file. -/
def exUnlawfulOut (path : Path) : CompileOutput :=
  compiledOr (Builder.new.compileFile (exReimportWorld exUnlawful) 9 path)

theorem exUnlawful_compiles : ∀ path ∈ ["a", "b", "c"],
    (Builder.new.compileFile (exReimportWorld exUnlawful) 9 path).1.toBool = true := by
  decide +kernel

theorem exUnlawful_names : innerNames (exUnlawfulOut "a") = [["a-b"], ["A.B"], ["c-d"]] ∧
    (match (exUnlawfulOut "a").file with | .protocol p => p.name | _ => "") = "p-q" ∧
    (match (exUnlawfulOut "b").file with | .protocol p => p.ns | _ => none) = some "1 x" ∧
    innerNames (exUnlawfulOut "c") = [["a", "a"]] ∧
    ((exUnlawfulOut "c").registry.schemas.any fun s => match s with
      | .record _ _ _ fs _ _ _ => fs.any fun f => match f.schema with
        | .union [.prim .int, .prim .int] _ => true
        | _ => false
      | _ => false) = true := by decide +kernel

theorem not_legal {x : String} (h : isValidAvroName x = false) : ¬ LegalName x := by
  intro hl
  have := (validateSchemaName_iff x none).mpr ⟨hl, .inl rfl⟩
  simp [validateSchemaName, h] at this

/-- **C63, violated by names.** Names of fields, symbols and parameters are not checked, nor are the
name and the namespace of a protocol: all of these are compiled although they are no Avro names. -/
theorem C63_fails_names :
    (Builder.new.compileFile (exReimportWorld exUnlawful) 9 "a").1.toBool = true ∧
    (Builder.new.compileFile (exReimportWorld exUnlawful) 9 "b").1.toBool = true ∧
    (∀ x ∈ ["a-b", "A.B", "c-d", "p-q"], ¬ LegalName x) ∧ ¬ LegalNamespace (some "1 x") ∧
    innerNames (exUnlawfulOut "a") = [["a-b"], ["A.B"], ["c-d"]] ∧
    (match (exUnlawfulOut "a").file with | .protocol p => p.name | _ => "") = "p-q" ∧
    (match (exUnlawfulOut "b").file with | .protocol p => p.ns | _ => none) = some "1 x" := by
  obtain ⟨h1, h2, h3, -⟩ := exUnlawful_names
  refine ⟨exUnlawful_compiles _ (by simp), exUnlawful_compiles _ (by simp), ?_, ?_, h1, h2, h3⟩
  · intro x hx
    refine not_legal ?_
    revert x
    decide
  · intro hl
    have := (validateSchemaName_iff "a" (some "1 x")).mpr ⟨(⟨'a', [], rfl, .inl rfl, by simp⟩ : LegalName "a"), hl⟩
    revert this
    decide

/-- **C63, violated by JSON imports.** Imported records may have two fields of one name and unions
with the same type twice. -/
theorem C63_fails_imported :
    (Builder.new.compileFile (exReimportWorld exUnlawful) 9 "c").1.toBool = true ∧
    innerNames (exUnlawfulOut "c") = [["a", "a"]] ∧
    ((exUnlawfulOut "c").registry.schemas.any fun s => match s with
      | .record _ _ _ fs _ _ _ => fs.any fun f => match f.schema with
        | .union [.prim .int, .prim .int] _ => true
        | _ => false
      | _ => false) = true ∧ ¬ LegalUnion [.prim .int, .prim .int] :=
  ⟨exUnlawful_compiles _ (by simp), exUnlawful_names.2.2.2.1, exUnlawful_names.2.2.2.2, by decide⟩

end

end Avdl.Props
