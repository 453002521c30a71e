import Verif.Lemmas.RearrangeOk
/-!
# C67: the order of declarations
-/

namespace Avdl.Props
open Spec BareOutput BareReader BareCompile

/-! ## Lemmas -/

/-- The schema extracted for a type. -/
def docOf (n : Nat) (lk : Lookup) (t : Schema) : Option (String × Json) :=
  t.name?.bind fun nm => (schemaToJson lk n t none []).map fun r => (nm, r.1)

theorem extract_docs {n : Nat} {lk : Lookup} {l : List Schema} (hn : ∀ t ∈ l, t.IsNamed) :
    ∀ {docs : List (String × Json)},
      extractSchemas.go n lk l = some docs ↔ docs.map some = l.map (docOf n lk) := by
  induction l with
  | nil =>
    intro docs
    rw [extractSchemas.go]
    cases docs <;> simp
  | cons s l ih =>
    intro docs
    rw [extractSchemas.go]
    have hs : ∃ nm, s.name? = some nm := by
      have := hn s (by simp)
      cases s with
      | record | enum | fixed => exact ⟨_, rfl⟩
      | _ => simp [Schema.IsNamed] at this
    obtain ⟨nm, hnm⟩ := hs
    have ih := fun d => ih (fun t ht => hn t (by simp [ht])) (docs := d)
    rw [hnm]
    dsimp only
    rw [List.map_cons, docOf, hnm, Option.bind_some]
    cases h1 : schemaToJson lk n s none [] with
    | none => cases docs <;> simp
    | some r =>
      obtain ⟨j, K⟩ := r
      dsimp only
      cases docs with
      | nil => cases extractSchemas.go n lk l <;> simp
      | cons d docs =>
        rw [List.map_cons, Option.map_some, List.cons.injEq, Option.some.injEq, ← ih]
        cases extractSchemas.go n lk l with
        | none => simp
        | some ds => simp [eq_comm]

theorem perm_somes {α : Type} {l : List α} {m : List (Option α)} (h : (l.map some).Perm m) :
    ∃ l', l'.map some = m ∧ l.Perm l' := by
  refine ⟨m.filterMap id, ?_, ?_⟩
  · have hall : ∀ o ∈ m, ∃ a, o = some a := by
      intro o ho
      obtain ⟨a, _, rfl⟩ := List.mem_map.mp (h.symm.subset ho)
      exact ⟨a, rfl⟩
    clear h
    induction m with
    | nil => rfl
    | cons o m ih =>
      obtain ⟨a, rfl⟩ := hall o (by simp)
      simp only [List.filterMap_cons, id, List.map_cons, List.cons.injEq, true_and]
      exact ih fun o ho => hall o (by simp [ho])
  · have := h.filterMap id
    rwa [List.filterMap_map, show (id ∘ some : α → Option α) = some from rfl,
      List.filterMap_some] at this

section
variable [CharTables] [FloatTables] [CaseTables]
variable {w : World} {text name text' name' : String} {dir : Path} {path : Option Path}
  {file file' : IdlFile} {decls decls' : List DeclItem}

/-- Same definitions, same extracted schemas. -/
theorem extract_definitions {b b' b1 b2 : Builder} {w w' : World} {fuel fuel' : Nat}
    {text name text' name' : String} {dir dir' : Path} {path path' : Option Path}
    {out out' : CompileOutput} (hc : b.compile w fuel text name dir path = (.ok out, b1))
    (hc' : b'.compile w' fuel' text' name' dir' path' = (.ok out', b2))
    (hs : ∀ x, SameDefinition out.registry out'.registry x)
    (hp : SameTypesAnyOrder out.registry out'.registry) {n : Nat} {docs : List (String × Json)}
    (h : extractSchemas n out.registry.schemas = some docs) :
    ∃ docs', extractSchemas n out'.registry.schemas = some docs' ∧ docs.Perm docs' := by
  have hn := fun t ht => Schema.isNamed_of_flatDef (compile_types hc t ht).2
  have hn' := fun t ht => Schema.isNamed_of_flatDef (compile_types hc' t ht).2
  have h1 := (extract_docs hn).mp h
  have hb : ∀ (lk : Lookup) (l : List Schema),
      l.map (docOf n lk) = (l.map Schema.bare).map (docOf n (bareTable lk)) := by
    intro lk l
    rw [List.map_map]
    refine List.map_congr_left fun t _ => ?_
    simp only [Function.comp, docOf, name_bare, schemaToJson_bare]
  have hlk : docOf n (bareTable (buildLookup out.registry.schemas none)) =
      docOf n (bareTable (buildLookup out'.registry.schemas none)) := by
    funext t
    unfold docOf
    rw [ser_local n t none [] fun x _ => ?_]
    rw [lookup_bare, lookup_bare, definition_lookup hc, definition_lookup hc']
    exact hs x
  have hperm : (out.registry.schemas.map Schema.bare).Perm
      (out'.registry.schemas.map Schema.bare) := by
    have := hp.map Prod.snd
    simpa [Registry.schemas, Function.comp_def] using this
  rw [hb, hlk] at h1
  obtain ⟨docs', e1, e2⟩ := perm_somes (h1 ▸ hperm.map (docOf n (bareTable (buildLookup
    out'.registry.schemas none))))
  refine ⟨docs', (extract_docs hn').mpr ?_, e2⟩
  rw [hb]
  exact e1

/-- What the two compilations have in common. -/
theorem sameInAnyOrder_events (h : SameInAnyOrder w text name text' name' file file' decls decls')
    {b b1 : Builder} {fuel : Nat} {out : CompileOutput}
    (hc : b.compile w fuel text name dir path = (.ok out, b1)) :
    ∃ es es' S, Trace w b.importDirs dir path.toList decls es (.finished S) ∧
      Trace w b.importDirs dir path.toList decls' es' (.finished S) ∧ Shuffled es es' ∧
      EventsOk es ∧ out.registry = firstAccepted [] (es.flatMap Event.types) ∧
      ∀ n, AgreeOnMessage (es.flatMap Event.messages ++ file.messages)
        (es'.flatMap Event.messages ++ file'.messages) n := by
  obtain ⟨ws, hp⟩ := h.read
  obtain ⟨_, _, _, es, S, k, g1, g2, g3, g4, _⟩ := compile_ok hc
  rw [hp] at g1
  simp only [Except.ok.injEq, Prod.mk.injEq] at g1
  obtain ⟨rfl, rfl, rfl⟩ := g1
  obtain ⟨es', t1, t2⟩ := h.decls.trace g2
  refine ⟨es, es', S, g2, t1, t2,
    (runEvents_start (trace_flat hp g2) (by rw [g3]; simp)).mp ⟨k, g3⟩,
    by rw [g4, C08_registry_is_first_accepted], fun n => ?_⟩
  have := h.messages n
  unfold AgreeOnMessage at this ⊢
  rw [t2.messages, lastEntry_append, lastEntry_append]
  cases h1 : lastEntry file.messages n <;> cases h2 : lastEntry file'.messages n <;> simp_all

/-! ## C67 -/

/-- **C67 (partial), success.**  A file that compiles still does when its type declarations are put
in another order and moved past its imports.

Two conditions: in the final state all default values of declared types conform, also those which
are not checked because they refer to a type that is declared later
(`C67_fails_unchecked_default`); and no declared type has the name of a type in an
imported JSON document (`C67_fails_json_first`). -/
theorem C67_any_order_partial (h : SameInAnyOrder w text name text' name' file file' decls decls')
    {b b1 : Builder} {fuel fuel' : Nat} {out : CompileOutput}
    (hc : b.compile w fuel text name dir path = (.ok out, b1))
    (hne' : (b.compile w fuel' text' name' dir path).1 ≠ .error .timeout)
    (hdef : ∀ es S, Trace w b.importDirs dir path.toList decls es (.finished S) →
      ∀ s ∈ idlTypes es, DefaultsOk (definition out.registry) s)
    (hclash : ∀ es S, Trace w b.importDirs dir path.toList decls es (.finished S) →
      ∀ s ∈ idlTypes es, ∀ t ∈ importedTypes es, s.fullName? ≠ t.fullName?) :
    ∃ out', (b.compile w fuel' text' name' dir path).1 = .ok out' := by
  obtain ⟨es, es', S, t1, t2, t3, t4, t5, t6⟩ := sameInAnyOrder_events h hc
  obtain ⟨ws, hp⟩ := h.read
  obtain ⟨ws', hp'⟩ := h.read'
  have hne : (b.compile w fuel text name dir path).1 ≠ .error .timeout := by rw [hc]; simp
  obtain ⟨_, _, _, es2, S2, f1, f2, _, f4⟩ := (C55_compiles_iff b hne).mp ⟨out, by rw [hc]⟩
  rw [hp] at f1
  simp only [Except.ok.injEq, Prod.mk.injEq] at f1
  obtain ⟨rfl, rfl, rfl⟩ := f1
  obtain rfl := C21_trace_determined f2 t1
  have hok : EventsOk es' := by
    refine shuffled_ok t4 t3 (hclash _ _ t1) (fun s hs => t5 ▸ hdef _ _ t1 s hs) ?_
    intro kt hkt x sp hr
    exact f4 x (.type hkt hr)
  have hsame := fun x => shuffled_sameDefinition (declares_of_ok t4).1 (declares_of_ok hok).1 t3 x
  refine (C55_compiles_iff b hne').mpr ⟨file', decls', ws', es', S, hp', t2, hok, fun x hx => ?_⟩
  have h1 := names_definition.mp (f4 x (outputRefersTo_definitions (fun x => (hsame x).symm)
    (sameHeader_symm h.header) (fun n => (t6 n).symm) hx))
  refine names_definition.mpr fun hnone => h1 ?_
  have := hsame x
  unfold SameDefinition at this
  rw [hnone] at this
  exact Option.map_eq_none_iff.mp this

/-- **C67, results.**  If both compile, the types are the same, in some order; so are the extracted
schemas; a document of a single schema is the same; a protocol has the same name, namespace,
documentation, annotations and messages. -/
theorem C67_results (h : SameInAnyOrder w text name text' name' file file' decls decls')
    {b b1 b2 : Builder} {fuel fuel' : Nat} {out out' : CompileOutput}
    (hc : b.compile w fuel text name dir path = (.ok out, b1))
    (hc' : b.compile w fuel' text' name' dir path = (.ok out', b2)) :
    SameTypesAnyOrder out.registry out'.registry ∧
    (∀ n docs, extractSchemas n out.registry.schemas = some docs →
      ∃ docs', extractSchemas n out'.registry.schemas = some docs' ∧ docs.Perm docs') ∧
    (∀ s, out.file = .schema s → ∀ n, outputJson n out = outputJson n out') ∧
    (∀ p, out.file = .protocol p → ∃ p', out'.file = .protocol p' ∧ p.name = p'.name ∧
      p.ns = p'.ns ∧ p.doc = p'.doc ∧ p.props = p'.props ∧
      (p.messages.map bareMessage).Perm (p'.messages.map bareMessage)) := by
  obtain ⟨es, es', S, t1, t2, t3, t4, t5, t6⟩ := sameInAnyOrder_events h hc
  obtain ⟨ws, hp⟩ := h.read
  obtain ⟨ws', hp'⟩ := h.read'
  obtain ⟨_, _, _, es2, S2, k, g1, g2, g3, g4, _, _, g7, _⟩ := compile_ok hc
  obtain ⟨_, _, _, es2', S2', k', f1, f2, f3, f4, _, _, f7, _⟩ := compile_ok hc'
  rw [hp] at g1
  rw [hp'] at f1
  simp only [Except.ok.injEq, Prod.mk.injEq] at g1 f1
  obtain ⟨rfl, rfl, rfl⟩ := g1
  obtain ⟨rfl, rfl, rfl⟩ := f1
  obtain rfl := C21_trace_determined g2 t1
  obtain rfl := C21_trace_determined f2 t2
  have hok' : EventsOk es2' := (runEvents_start (trace_flat hp' f2) (by rw [f3]; simp)).mp ⟨k', f3⟩
  have e' : out'.registry = firstAccepted [] (es2'.flatMap Event.types) := by
    rw [f4, C08_registry_is_first_accepted]
  have hsame : ∀ x, SameDefinition out.registry out'.registry x := by
    rw [t5, e']
    exact fun x => shuffled_sameDefinition (declares_of_ok t4).1 (declares_of_ok hok').1 t3 x
  have htypes : SameTypesAnyOrder out.registry out'.registry :=
    sameTypes_of_definitions (by rw [t5]; exact firstAccepted_nodup _)
      (by rw [e']; exact firstAccepted_nodup _) hsame
  refine ⟨htypes, fun n docs hd => extract_definitions hc hc' hsame htypes hd, ?_, ?_⟩
  · intro s hs n
    have hlk := fun x => (definition_lookup hc x)
    have hlk' := fun x => (definition_lookup hc' x)
    have hh := h.header
    obtain ⟨f, r, _⟩ := out
    obtain ⟨f', r', _⟩ := out'
    dsimp only at g7 f7 hs hsame hlk hlk'
    subst hs
    cases hh with
    | protocol => exact g7.elim
    | @schema s0 s0' hb =>
      cases f' with
      | protocol s => exact f7.elim
      | named s => exact f7.elim
      | schema o' =>
        dsimp only at g7 f7
        subst g7 f7
        unfold outputJson
        dsimp only
        rw [ser_local_bare hb fun x _ => ?_]
        rw [hlk, hlk']
        exact hsame x
  · intro p hpf
    have hh := h.header
    obtain ⟨f, r, _⟩ := out
    obtain ⟨f', r', _⟩ := out'
    dsimp only at g7 f7 hpf
    subst hpf
    cases hh with
    | schema => exact g7.elim
    | @protocol q q' h1 h2 h3 h4 =>
      cases f' with
      | schema s => exact f7.elim
      | named s => exact f7.elim
      | protocol o' =>
        dsimp only at g7 f7
        refine ⟨o', rfl, by rw [g7, f7]; exact h1, by rw [g7, f7]; exact h2, by rw [g7, f7]; exact h3,
          by rw [g7, f7]; exact h4, ?_⟩
        rw [g7, f7]
        have := bareMessages_perm t6
        rw [extendMessages_append, extendMessages_append] at this
        exact this

end

/-! ## Examples, and where the property fails -/

/-- `Rearranged`, as a computation. -/
def rearrangedCheck (l l' : List DeclItem) : Bool :=
  sameDeclsCheck (importItems l) (importItems l') &&
    decide (((declaredTypes l).map Schema.bare).Perm ((declaredTypes l').map Schema.bare))

theorem rearranged_of_check {l l' : List DeclItem} (h : rearrangedCheck l l' = true) :
    Rearranged l l' := by
  simp only [rearrangedCheck, Bool.and_eq_true, decide_eq_true_eq] at h
  exact ⟨sameDecls_of_check h.1, h.2⟩

/-- `SameInAnyOrder`, as a computation. -/
def anyOrderCheck (r r' : Except CompileErr (IdlFile × List DeclItem × List Warning)) : Bool :=
  r.toBool && r'.toBool && sameHeaderCheck (parsedOr r).1 (parsedOr r').1 &&
    sameMessagesCheck (parsedOr r).1.messages (parsedOr r').1.messages &&
    rearrangedCheck (parsedOr r).2.1 (parsedOr r').2.1

theorem sameInAnyOrder_of_check [CharTables] [FloatTables] [CaseTables] {w : World}
    {text name text' name' : String}
    (h : anyOrderCheck (parseIdl w text name) (parseIdl w text' name') = true) :
    SameInAnyOrder w text name text' name' (parsedOr (parseIdl w text name)).1
      (parsedOr (parseIdl w text' name')).1 (parsedOr (parseIdl w text name)).2.1
      (parsedOr (parseIdl w text' name')).2.1 := by
  simp only [anyOrderCheck, Bool.and_eq_true] at h
  obtain ⟨⟨⟨⟨h1, h2⟩, h3⟩, h4⟩, h5⟩ := h
  exact ⟨⟨_, parsed_of_ok h1⟩, ⟨_, parsed_of_ok h2⟩, sameHeader_of_check h3, agree_of_check h4,
    rearranged_of_check h5⟩

/-- All defaults conform, as a computation. -/
def defaultsCheck (out : CompileOutput) : Bool :=
  out.registry.schemas.all fun s =>
    match validateRecordFieldDefaults (definition out.registry) 9 s with
    | some [] => true
    | _ => false

theorem defaultsOk_of_check [CharTables] [FloatTables] [CaseTables] {b b' : Builder} {w : World}
    {fuel : Nat} {text name : String} {dir : Path} {path : Option Path} {out : CompileOutput}
    (h : b.compile w fuel text name dir path = (.ok out, b')) (hd : defaultsCheck out = true)
    {t : Schema} (ht : t ∈ out.registry.schemas) : DefaultsOk (definition out.registry) t := by
  have h1 := List.all_eq_true.mp hd t ht
  split at h1
  · rename_i h2
    refine (checkDefaults_nil ?_ (compile_types h t ht).2 h2).mp rfl
    intro y u hu
    have hm := mem_of_definition hu
    obtain ⟨_, _, _, es, _, _, _, _, _, h4, _⟩ := compile_ok h
    refine ⟨(compile_types h u (List.mem_map.mpr ⟨_, hm, rfl⟩)).2, ?_⟩
    rw [h4] at hm
    exact (C08_registry_ok (es.flatMap Event.types) _ hm).2
  · cases h1

theorem noImported_of_types [CharTables] [FloatTables] [CaseTables] {w : World} {dirs : List Path}
    {dir : Path} {S : List Path} {items : List DeclItem} {es : List Event} {e : Ending}
    (h : Trace w dirs dir S items es e) (hi : items.all isTypeDecl = true) :
    importedTypes es = [] := by
  induction h with
  | nil => rfl
  | cut => rfl
  | type _ ih =>
    rw [List.all_cons, Bool.and_eq_true] at hi
    exact ih hi.2
  | _ => rw [List.all_cons, Bool.and_eq_true] at hi; cases hi.1

section
attribute [local instance] asciiTables exFloats exCases exJsonFloats

/-- A JSON schema, and a protocol that refers to a type of the file that imports it. -/
def exOrderFiles (p : Path) : Option String :=
  if p = "x" then
    some "{\"type\":\"record\",\"name\":\"X\",\"namespace\":\"p\",\"fields\":[{\"name\":\"a\",\"type\":\"int\"}]}"
  else if p = "y" then some "@namespace(\"p\")protocol Y{record C{A a;}}"
  else none

def exOrderWorld : World := exReimportWorld exOrderFiles
def exOrderOut (text : String) : Except CompileErr CompileOutput × Builder :=
  Builder.new.compile exOrderWorld 9 text "" "" none
def exOrderRead (text : String) : Except CompileErr (IdlFile × List DeclItem × List Warning) :=
  parseIdl exOrderWorld text ""

/-- The texts are the same but for the order of declarations; the first compiles, the second does
not. -/
def OrderMatters (text text' : String) : Prop :=
  (∃ file file' decls decls', SameInAnyOrder exOrderWorld text "" text' "" file file' decls decls') ∧
  (∃ out, (exOrderOut text).1 = .ok out) ∧ ∃ e, (exOrderOut text').1 = .error e

theorem orderMatters_of_check {text text' : String}
    (h : (anyOrderCheck (exOrderRead text) (exOrderRead text') && (exOrderOut text).1.toBool &&
      !(exOrderOut text').1.toBool) = true) : OrderMatters text text' := by
  simp only [Bool.and_eq_true, Bool.not_eq_true'] at h
  obtain ⟨⟨h1, h2⟩, h3⟩ := h
  refine ⟨⟨_, _, _, _, sameInAnyOrder_of_check h1⟩, ?_, ?_⟩
  · cases hr : (exOrderOut text).1 with
    | ok out => exact ⟨out, rfl⟩
    | error e => rw [hr] at h2; cases h2
  · cases hr : (exOrderOut text').1 with
    | ok out => rw [hr] at h3; cases h3
    | error e => exact ⟨e, rfl⟩

/-- **C67 fails, defaults.**  A field of enum type with default `3` is accepted if the enum is
declared after the record, and rejected if it is declared before. -/
theorem C67_fails_unchecked_default :
    OrderMatters "protocol P{record R{E e=3;}enum E{A}}" "protocol P{enum E{A}record R{E e=3;}}" :=
  orderMatters_of_check (by decide +kernel)

/-- **C67 fails, JSON imports.**  A type declared before the import of a JSON schema of the same name
replaces it; declared after the import, it is rejected. -/
theorem C67_fails_json_first :
    OrderMatters "@namespace(\"p\")protocol P{record X{}import schema \"x\";}"
      "@namespace(\"p\")protocol P{import schema \"x\";record X{}}" :=
  orderMatters_of_check (by decide +kernel)

/-- Two orders of the same declarations, without and with imports. -/
def exOrder1 : String :=
  "@namespace(\"p\")protocol P{enum Z{Q}record A{B?b;Z z=\"Q\";}record B{A a;}A f(B b);}"
def exOrder2 : String :=
  "@namespace(\"p\")protocol P{record B{A a;} A f(B b); record A{B?b;Z z=\"Q\";}enum Z{Q}}"
def exOrder3 : String :=
  "@namespace(\"p\")protocol P{import schema \"x\";enum Z{Q}import idl \"y\";record A{Z z=\"Q\";X?x;}X f();}"
def exOrder4 : String :=
  "@namespace(\"p\")protocol P{record A{Z z=\"Q\";X?x;}import schema \"x\";X f();import idl \"y\";enum Z{Q}}"

theorem exOrder_checks : (anyOrderCheck (exOrderRead exOrder1) (exOrderRead exOrder2) &&
    (exOrderOut exOrder1).1.toBool && (exOrderOut exOrder2).1.toBool &&
    defaultsCheck (compiledOr (exOrderOut exOrder1)) &&
    (parsedOr (exOrderRead exOrder1)).2.1.all isTypeDecl &&
    decide ((compiledOr (exOrderOut exOrder1)).registry.names = ["p.Z", "p.A", "p.B"])) = true := by
  decide +kernel

theorem exOrder_imports : (anyOrderCheck (exOrderRead exOrder3) (exOrderRead exOrder4) &&
    (exOrderOut exOrder3).1.toBool && (exOrderOut exOrder4).1.toBool &&
    decide ((compiledOr (exOrderOut exOrder3)).registry.names = ["p.X", "p.Z", "p.C", "p.A"]) &&
    decide ((compiledOr (exOrderOut exOrder4)).registry.names = ["p.A", "p.X", "p.C", "p.Z"])) =
    true := by
  decide +kernel

theorem exOrderRead_eq (text : String) : parseIdl exOrderWorld text "" = exOrderRead text := rfl

attribute [local irreducible] exOrderRead Builder.compile

theorem exOrder_ok {text : String} (h : (exOrderOut text).1.toBool = true) :
    Builder.new.compile exOrderWorld 9 text "" "" none =
      (.ok (compiledOr (exOrderOut text)), (exOrderOut text).2) := by
  show exOrderOut text = _
  generalize exOrderOut text = r at h ⊢
  obtain ⟨r, b⟩ := r
  cases r with
  | ok x => rfl
  | error e => cases h

/-- Non-vacuity of `C67_any_order_partial`. -/
example : ∃ file file' decls decls' out b1,
    SameInAnyOrder exOrderWorld exOrder1 "" exOrder2 "" file file' decls decls' ∧
    Builder.new.compile exOrderWorld 9 exOrder1 "" "" none = (.ok out, b1) ∧
    (Builder.new.compile exOrderWorld 9 exOrder2 "" "" none).1 ≠ .error .timeout ∧
    (∀ es S, Trace exOrderWorld [] "" [] decls es (.finished S) →
      ∀ s ∈ idlTypes es, DefaultsOk (definition out.registry) s) ∧
    (∀ es S, Trace exOrderWorld [] "" [] decls es (.finished S) →
      ∀ s ∈ idlTypes es, ∀ t ∈ importedTypes es, s.fullName? ≠ t.fullName?) := by
  have hk := exOrder_checks
  simp only [Bool.and_eq_true] at hk
  obtain ⟨⟨⟨⟨⟨k1, k2⟩, k3⟩, k4⟩, k5⟩, _⟩ := hk
  rw [← exOrderRead_eq, ← exOrderRead_eq] at k1
  rw [← exOrderRead_eq] at k5
  have hS := sameInAnyOrder_of_check k1
  have hc := exOrder_ok k2
  refine ⟨_, _, _, _, _, _, hS, hc, by rw [exOrder_ok k3]; simp, ?_, ?_⟩
  · intro es S ht s hs
    refine defaultsOk_of_check hc k4 ?_
    obtain ⟨es1, _, _, t1, _, _, t4, t5, _⟩ := sameInAnyOrder_events hS hc
    obtain rfl := C21_trace_determined ht t1
    obtain ⟨x, _, hx⟩ := (declares_of_ok t4).1 s hs
    rw [← definition_accepted, ← t5] at hx
    exact List.mem_map.mpr ⟨_, mem_of_definition hx, rfl⟩
  · intro es S ht s hs t htm
    rw [noImported_of_types ht k5] at htm
    cases htm

/-- Non-vacuity of `C67_results`: with a JSON schema and a protocol imported, the types come in
another order. -/
example : ∃ file file' decls decls' out out' b1 b2,
    SameInAnyOrder exOrderWorld exOrder3 "" exOrder4 "" file file' decls decls' ∧
    Builder.new.compile exOrderWorld 9 exOrder3 "" "" none = (.ok out, b1) ∧
    Builder.new.compile exOrderWorld 9 exOrder4 "" "" none = (.ok out', b2) ∧
    out.registry.names = ["p.X", "p.Z", "p.C", "p.A"] ∧
    out'.registry.names = ["p.A", "p.X", "p.C", "p.Z"] := by
  have hk := exOrder_imports
  simp only [Bool.and_eq_true, decide_eq_true_eq] at hk
  obtain ⟨⟨⟨⟨k1, k2⟩, k3⟩, k4⟩, k5⟩ := hk
  rw [← exOrderRead_eq, ← exOrderRead_eq] at k1
  exact ⟨_, _, _, _, _, _, _, _, sameInAnyOrder_of_check k1, exOrder_ok k2, exOrder_ok k3, k4, k5⟩

end

end Avdl.Props
