import Verif.Lemmas.Local
import Verif.Spec.Local
import Verif.Props.Reimport
/-!
# C65: unrelated declarations do not affect the schema of a type
-/

namespace Avdl.Props
open Spec BareOutput BareReader

section
variable [CharTables] [FloatTables] [CaseTables]

/-! ## Lemmas -/

theorem definition_lookup {b b' : Builder} {w : World} {fuel : Nat} {text name : String} {dir : Path}
    {path : Option Path} {out : CompileOutput}
    (h : b.compile w fuel text name dir path = (.ok out, b')) (x : String) :
    (buildLookup out.registry.schemas none).get? x = definition out.registry x := by
  have hflat := fun t ht => (compile_types h t ht).2
  have hd := compile_distinct h
  have hnames := fullNames_registry h
  have hkey : ∀ t ∈ out.registry.schemas, t.fullName? = some (lookupKey none t) := fun t ht =>
    lookupKey_eq (Schema.isNamed_of_flatDef (hflat t ht)) fun _ => rfl
  have e : out.registry.schemas.map (fun t => (lookupKey none t, t)) = out.registry := by
    have hok : ∀ kt ∈ out.registry, kt.2.fullName? = some kt.1 := by
      obtain ⟨_, _, _, es, _, _, _, _, _, h4, _⟩ := compile_ok h
      rw [h4]
      exact fun kt hkt => (C08_registry_ok (es.flatMap Event.types) kt hkt).2
    clear hnames hd hflat h
    generalize out.registry = r at *
    induction r with
    | nil => rfl
    | cons kt r ih =>
      have h1 := hkey kt.2 (by simp [Registry.schemas])
      rw [hok kt (by simp), Option.some.injEq] at h1
      simp only [Registry.schemas, List.map_cons, List.cons.injEq]
      exact ⟨by rw [← h1], ih (fun t ht => hkey t (by simp [Registry.schemas] at ht ⊢; exact .inr ht))
        fun kt hkt => hok kt (by simp [hkt])⟩
  rw [buildLookup_flat none _ hflat, e]
  have hk : (out.registry.map Prod.fst).Nodup := by
    rw [hnames] at hd; exact hd
  unfold definition
  cases hf : List.find? (fun kt => kt.1 == x) out.registry with
  | none =>
    cases hg : Lookup.get? out.registry.reverse x with
    | none => rfl
    | some t =>
      have := Lookup.mem_of_get? hg
      rw [List.mem_reverse] at this
      simpa using List.find?_eq_none.mp hf _ this
  | some kt =>
    have h1 := List.mem_of_find?_eq_some hf
    have h2 := List.find?_some hf
    simp only [beq_iff_eq] at h2
    refine Lookup.get?_of_mem_nodup ?_ ?_
    · rw [List.map_reverse, (List.reverse_perm _).nodup_iff]; exact hk
    · rw [List.mem_reverse, ← h2]; exact h1

theorem definition_at {r : Registry} (hd : r.names.Nodup) {k : Nat} {x : String} {t : Schema}
    (h : r[k]? = some (x, t)) : definition r x = some t := by
  unfold definition
  induction r generalizing k with
  | nil => cases h
  | cons kt r ih =>
    have hd' : kt.1 ∉ r.map Prod.fst ∧ (r.map Prod.fst).Nodup := List.nodup_cons.mp hd
    cases k with
    | zero =>
      injection h with h
      subst h
      simp
    | succ k =>
      have hm : (x, t) ∈ r := List.mem_of_getElem? h
      have hne : kt.1 ≠ x := by
        rintro rfl
        exact hd'.1 (List.mem_map.mpr ⟨_, hm, rfl⟩)
      rw [List.find?_cons_of_neg (by simpa using hne)]
      exact ih hd'.2 h

theorem extract_at {n : Nat} {types : List Schema} {docs : List (String × Json)}
    (hn : ∀ t ∈ types, t.IsNamed) (h : extractSchemas n types = some docs) {k : Nat} {t : Schema}
    (hk : types[k]? = some t) : ∃ nm j K, t.name? = some nm ∧
      schemaToJson (buildLookup types none) n t none [] = some (j, K) ∧ docs[k]? = some (nm, j) := by
  unfold extractSchemas at h
  dsimp only at h
  generalize buildLookup types none = lk at h ⊢
  induction types generalizing docs k with
  | nil => cases hk
  | cons s types ih =>
    rw [extractSchemas.go] at h
    have hs : ∃ nm, s.name? = some nm := by
      have := hn s (by simp)
      cases s with
      | record | enum | fixed => exact ⟨_, rfl⟩
      | _ => simp [Schema.IsNamed] at this
    obtain ⟨nm, hnm⟩ := hs
    rw [hnm] at h
    dsimp only at h
    cases h1 : schemaToJson lk n s none [] with
    | none => rw [h1] at h; cases h
    | some r =>
      obtain ⟨j, K⟩ := r
      rw [h1] at h
      dsimp only at h
      cases h2 : extractSchemas.go n lk types with
      | none => rw [h2] at h; cases h
      | some ds =>
        rw [h2] at h
        simp only [Option.map_some, Option.some.injEq] at h
        subst h
        cases k with
        | zero =>
          injection hk with hk
          subst hk
          exact ⟨nm, j, K, hnm, h1, rfl⟩
        | succ k => exact ih (fun t ht => hn t (by simp [ht])) (k := k) hk h2

/-! ## The property -/

/-- **C65, extraction.**  Two compilations, of any files: if a type and all types it mentions have
the same definitions, the schema extracted for it is the same, whatever else is declared, in
whatever order, before or after it. -/
theorem C65_extract {b b' : Builder} {w w' : World} {fuel fuel' : Nat} {out out' : CompileOutput}
    {docs docs' : List (String × Json)} (h : Extracts b w fuel out docs)
    (h' : Extracts b' w' fuel' out' docs') {k k' : Nat} {x : String} {t t' : Schema}
    (hk : out.registry[k]? = some (x, t)) (hk' : out'.registry[k']? = some (x, t'))
    (ht : SameDefinition out.registry out'.registry x)
    (hm : SameWithin out.registry out'.registry t) :
    ∃ d, docs[k]? = some d ∧ docs'[k']? = some d := by
  obtain ⟨⟨_, _, _, _, _, hc⟩, he⟩ := h.compiled
  obtain ⟨⟨_, _, _, _, _, hc'⟩, he'⟩ := h'.compiled
  have hnd := compile_distinct hc
  rw [fullNames_registry hc] at hnd
  have hnd' := compile_distinct hc'
  rw [fullNames_registry hc'] at hnd'
  unfold SameDefinition at ht
  rw [definition_at hnd hk, definition_at hnd' hk'] at ht
  simp only [Option.map_some, Option.some.injEq] at ht
  obtain ⟨nm, j, K, n1, s1, d1⟩ := extract_at (t := t) (k := k)
    (fun t ht => Schema.isNamed_of_flatDef (compile_types hc t ht).2) he
    (by simp [Registry.schemas, hk])
  obtain ⟨nm', j', K', n2, s2, d2⟩ := extract_at (t := t') (k := k')
    (fun t ht => Schema.isNamed_of_flatDef (compile_types hc' t ht).2) he'
    (by simp [Registry.schemas, hk'])
  have e : schemaToJson (buildLookup out.registry.schemas none) (max fuel fuel') t none [] =
      schemaToJson (buildLookup out'.registry.schemas none) (max fuel fuel') t' none [] := by
    refine ser_local_bare ht (fun x hx => ?_) _ _ _
    rw [definition_lookup hc, definition_lookup hc']
    rw [funext (definition_lookup hc)] at hx
    exact hm x hx
  rw [ser_mono _ (Nat.le_max_left _ _) s1, ser_mono _ (Nat.le_max_right _ _) s2] at e
  cases e
  rw [← name_bare, ht, name_bare, n2] at n1
  cases n1
  exact ⟨_, d1, d2⟩

/-- **C65, documents of a single schema.**  If the main schemas of two files and all types they
mention are the same, so are the documents. -/
theorem C65_schema {b b' : Builder} {w w' : World} {fuel fuel' : Nat} {out out' : CompileOutput}
    {j j' : Json} (h : Converts b w fuel out j) (h' : Converts b' w' fuel' out' j')
    {s s' : Schema} (hs : out.file = .schema s) (hs' : out'.file = .schema s')
    (ht : s.bare = s'.bare) (hm : SameWithin out.registry out'.registry s) : j = j' := by
  obtain ⟨⟨_, _, _, _, _, hc⟩, he⟩ := h.compiled
  obtain ⟨⟨_, _, _, _, _, hc'⟩, he'⟩ := h'.compiled
  unfold outputJson at he he'
  rw [hs] at he
  rw [hs'] at he'
  obtain ⟨r, s1, rfl⟩ := Option.map_eq_some_iff.mp he
  obtain ⟨r', s2, rfl⟩ := Option.map_eq_some_iff.mp he'
  have e : schemaToJson (buildLookup out.registry.schemas none) (max fuel fuel') s none [] =
      schemaToJson (buildLookup out'.registry.schemas none) (max fuel fuel') s' none [] := by
    refine ser_local_bare ht (fun x hx => ?_) _ _ _
    rw [definition_lookup hc, definition_lookup hc']
    rw [funext (definition_lookup hc)] at hx
    exact hm x hx
  rw [ser_mono _ (Nat.le_max_left _ _) s1, ser_mono _ (Nat.le_max_right _ _) s2] at e
  cases e
  rfl

theorem protocol_lookup {b b' : Builder} {w : World} {fuel : Nat} {text name : String} {dir : Path}
    {path : Option Path} {out : CompileOutput} {p : Protocol}
    (h : b.compile w fuel text name dir path = (.ok out, b')) (hp : out.file = .protocol p)
    (hc : CoherentProtocol p) : (buildLookup p.types p.ns).get? = definition out.registry := by
  have hT := (compile_protocolOk h hp hc).table
  have hd := compile_distinct h
  rw [fullNames_registry h] at hd
  have hok : ∀ kt ∈ out.registry, kt.2.fullName? = some kt.1 := by
    obtain ⟨_, _, _, es, _, _, _, _, _, h4, _⟩ := compile_ok h
    rw [h4]
    exact fun kt hkt => (C08_registry_ok (es.flatMap Event.types) kt hkt).2
  have key : ∀ x t, (buildLookup p.types p.ns).get? x = some t ↔
      definition out.registry x = some t := by
    intro x t
    rw [hT.lookup_iff, (compile_protocol h hp).1]
    constructor
    · rintro ⟨ht, hx⟩
      obtain ⟨kt, hkt, rfl⟩ := List.mem_map.mp ht
      rw [hok kt hkt, Option.some.injEq] at hx
      obtain ⟨k, hk⟩ := List.getElem?_of_mem hkt
      exact definition_at hd (k := k) (by rw [hk, ← hx])
    · intro hx
      unfold definition at hx
      obtain ⟨kt, hf, rfl⟩ := Option.map_eq_some_iff.mp hx
      have h1 := List.mem_of_find?_eq_some hf
      have h2 := List.find?_some hf
      simp only [beq_iff_eq] at h2
      exact ⟨List.mem_map.mpr ⟨kt, h1, rfl⟩, by rw [← h2]; exact hok kt h1⟩
  funext x
  exact Option.ext fun t => key x t

omit [CharTables] [FloatTables] [CaseTables] in
theorem schemas_same {r r' : List (String × Schema)} (h : SameTypesInOrder r r') :
    (Registry.schemas r).map Schema.bare = (Registry.schemas r').map Schema.bare := by
  unfold SameTypesInOrder at h
  have := congrArg (List.map Prod.snd) h
  simpa [Registry.schemas, List.map_map, Function.comp_def] using this

/-- **C65, protocols.**  Two compilations of protocols that differ only in that the second has some
more types, none of which mentions a type that comes later in the first: the document of the second
has some more elements in `types`, at one place, and differs in nothing else.  (Types written out
where they are first used have no element of their own, so there may be less elements than types.)  (What is missing: the
condition on namespaces; see `C65_fails_other_namespace`.) -/
theorem C65_protocol_partial {b b' : Builder} {w w' : World} {fuel fuel' : Nat}
    {out out' : CompileOutput} {j j' : Json} (h : Converts b w fuel out j)
    (h' : Converts b' w' fuel' out' j') {p p' : Protocol} (hp : out.file = .protocol p)
    (hp' : out'.file = .protocol p') (hc : CoherentProtocol p) (hc' : CoherentProtocol p')
    {before after before' added after' : List (String × Schema)}
    (hr : out.registry = before ++ after) (hr' : out'.registry = before' ++ added ++ after')
    (hbefore : SameTypesInOrder before before') (hafter : SameTypesInOrder after after')
    (hsame : SameButTypes p p')
    (hind : ∀ kt ∈ added, ∀ x, Mentions (definition out'.registry) kt.2 x →
      x ∉ after'.map Prod.fst) :
    (∃ ts more ts', j.get? "types" = some (.arr (ts ++ ts')) ∧
      j'.get? "types" = some (.arr (ts ++ more ++ ts')) ∧ ts.length ≤ before.length ∧
      more.length ≤ added.length ∧ ts'.length ≤ after.length) ∧
    ∀ k, k ≠ "types" → j.get? k = j'.get? k := by
  obtain ⟨⟨_, _, _, _, _, hcomp⟩, hj⟩ := h.compiled
  obtain ⟨⟨_, _, _, _, _, hcomp'⟩, hj'⟩ := h'.compiled
  unfold outputJson at hj hj'
  rw [hp] at hj
  rw [hp'] at hj'
  have hok := compile_protocolOk hcomp hp hc
  have hok' := compile_protocolOk hcomp' hp' hc'
  have ht := (compile_protocol hcomp hp).1
  have ht' := (compile_protocol hcomp' hp').1
  have hregok : ∀ kt ∈ out'.registry, kt.2.fullName? = some kt.1 := by
    obtain ⟨_, _, _, es, _, _, _, _, _, h4, _⟩ := compile_ok hcomp'
    rw [h4]
    exact fun kt hkt => (C08_registry_ok (es.flatMap Event.types) kt hkt).2
  obtain ⟨s1, s2, s3, s4, s5⟩ := hsame
  have key := protocol_added (a := Registry.schemas before) (b := Registry.schemas after)
    (a' := Registry.schemas before') (z := Registry.schemas added) (b' := Registry.schemas after')
    hok.table hok'.table (by rw [ht, hr]; simp [Registry.schemas])
    (by rw [ht', hr']; simp [Registry.schemas]) (schemas_same hbefore) (schemas_same hafter)
    (by unfold Protocol.bare; simp [s1, s2, s3, s4, s5]) hc.messages ?_ ?_ ?_ hj hj'
  · simpa only [Registry.schemas, List.length_map] using key
  · rw [ht]
    intro t hmem x sp hx
    rw [fullNames_registry hcomp]
    exact (compile_refs hcomp).1 t hmem x sp hx
  · intro x hx
    rw [ht, fullNames_registry hcomp]
    have := (compile_refs hcomp).2 x
    rw [hp] at this
    exact this hx
  · intro t htz x hx
    obtain ⟨kt, hkt, rfl⟩ := List.mem_map.mp htz
    rw [protocol_lookup hcomp' hp' hc'] at hx
    intro hmem
    obtain ⟨u, hu, hxu⟩ := mem_fullNames.mp hmem
    obtain ⟨ku, hku, rfl⟩ := List.mem_map.mp hu
    rw [hregok ku (by rw [hr']; simp [hku]), Option.some.injEq] at hxu
    exact hind kt hkt x hx (List.mem_map.mpr ⟨ku, hku, hxu⟩)

/-- **C65, types added at the end** may mention whatever they like. -/
theorem C65_appended_partial {b b' : Builder} {w w' : World} {fuel fuel' : Nat}
    {out out' : CompileOutput} {j j' : Json} (h : Converts b w fuel out j)
    (h' : Converts b' w' fuel' out' j') {p p' : Protocol} (hp : out.file = .protocol p)
    (hp' : out'.file = .protocol p') (hc : CoherentProtocol p) (hc' : CoherentProtocol p')
    {first added : List (String × Schema)} (hr' : out'.registry = first ++ added)
    (hfirst : SameTypesInOrder out.registry first) (hsame : SameButTypes p p') :
    (∃ ts more, j.get? "types" = some (.arr ts) ∧ j'.get? "types" = some (.arr (ts ++ more))) ∧
    ∀ k, k ≠ "types" → j.get? k = j'.get? k := by
  obtain ⟨⟨ts, more, ts', h1, h2, -, -, hl⟩, h3⟩ := C65_protocol_partial h h' hp hp' hc hc'
    (before := out.registry) (after := []) (after' := []) (by simp) (by rw [hr', List.append_nil])
    hfirst rfl hsame (by simp)
  obtain rfl : ts' = [] := List.eq_nil_of_length_eq_zero (Nat.le_zero.mp hl)
  rw [List.append_nil] at h1 h2
  exact ⟨⟨ts, more, h1, h2⟩, h3⟩

end

/-! ## Examples, and where the property fails -/

section
attribute [local instance] asciiTables exFloats exCases exJsonFloats

/-- `a` and `b` are protocols that differ in an enum; `c` and `d` differ in an import of a type in no
namespace. -/
def exLocalFiles (p : Path) : Option String :=
  if p = "a" then some "@namespace(\"p\")protocol P{record A{B?b;}record B{A a;}A f(B b);}"
  else if p = "b" then
    some "@namespace(\"p\")protocol P{record A{B?b;}\n enum Z{Q}record B{A a;}A f(B b);}"
  else if p = "c" then some "@namespace(\"p\")protocol P{record R{X x;}record X{int i;}}"
  else if p = "d" then
    some "@namespace(\"p\")protocol P{record R{X x;}record X{int i;}import schema \"x.avsc\";}"
  else if p = "x.avsc" then some "{\"type\":\"enum\",\"name\":\"X\",\"symbols\":[\"A\"]}"
  else none

def exLocalOut (p : Path) : CompileOutput :=
  compiledOr (Builder.new.compileFile (exReimportWorld exLocalFiles) 9 p)
def exLocalDoc (p : Path) : Json :=
  jsonOr (Builder.new.convert (exReimportWorld exLocalFiles) 9 p)

/-- `SameTypesInOrder`, as a computation. -/
def sameTypesCheck (r r' : List (String × Schema)) : Bool :=
  decide (r.map (fun kt => (kt.1, kt.2.bare)) = r'.map fun kt => (kt.1, kt.2.bare))

theorem sameTypes_of_check {r r' : List (String × Schema)} (h : sameTypesCheck r r' = true) :
    SameTypesInOrder r r' := by
  have := of_decide_eq_true h
  exact this

/-- `SameButTypes`, as a computation. -/
def sameButTypesCheck (f f' : IdlFile) : Bool :=
  match f, f' with
  | .protocol p, .protocol p' => decide (p.name = p'.name ∧ p.ns = p'.ns ∧ p.doc = p'.doc ∧
      p.props = p'.props ∧ p.messages.map bareMessage = p'.messages.map bareMessage)
  | _, _ => false

theorem sameButTypes_of_check {f f' : IdlFile} (h : sameButTypesCheck f f' = true) :
    ∃ p p', f = .protocol p ∧ f' = .protocol p' ∧ SameButTypes p p' := by
  unfold sameButTypesCheck at h
  split at h
  · have := of_decide_eq_true h
    exact ⟨_, _, rfl, rfl, this⟩
  · cases h

/-- What has to be computed about an example. -/
def exLocalChecks (p : Path) : Bool :=
  (Builder.new.compileFile (exReimportWorld exLocalFiles) 9 p).1.toBool &&
  (Builder.new.convert (exReimportWorld exLocalFiles) 9 p).1.toBool &&
  noDefsCheck (exLocalOut p).file

def isEnum : Schema → Bool
  | .enum .. => true
  | _ => false

theorem exLocal_checks : (["a", "b", "c", "d"].all exLocalChecks &&
    (["a", "b"].all fun p => decide (∀ x ∈ (exLocalOut p).registry.names, '.' ∈ x.toList)) &&
    decide ((exLocalOut "b").registry.length = 3) &&
    sameTypesCheck ((exLocalOut "a").registry.take 1) ((exLocalOut "b").registry.take 1) &&
    sameTypesCheck ((exLocalOut "a").registry.drop 1) ((exLocalOut "b").registry.drop 2) &&
    (((exLocalOut "b").registry.drop 1).take 1).all (fun kt => isEnum kt.2) &&
    sameButTypesCheck (exLocalOut "a").file (exLocalOut "b").file) = true := by decide +kernel

theorem exLocal_fails : (sameTypesCheck (exLocalOut "c").registry
      ((exLocalOut "d").registry.take 2) &&
    sameButTypesCheck (exLocalOut "c").file (exLocalOut "d").file &&
    (match (exLocalDoc "c").get? "types", (exLocalDoc "d").get? "types" with
      | some (.arr (r :: _)), some (.arr (r' :: _)) => decide (r ≠ r')
      | _, _ => false)) = true := by decide +kernel

attribute [local irreducible] exLocalOut exLocalDoc Builder.compileFile Builder.convert
  Builder.compile

theorem exLocal_converts {p : Path} (h : exLocalChecks p = true) :
    Converts Builder.new (exReimportWorld exLocalFiles) 9 (exLocalOut p) (exLocalDoc p) := by
  simp only [exLocalChecks, Bool.and_eq_true] at h
  unfold exLocalOut exLocalDoc
  exact converts_of_ok h.1.1 h.1.2

theorem exLocal_all : (∀ p ∈ ["a", "b", "c", "d"], exLocalChecks p = true) := by
  have hk := exLocal_checks
  simp only [Bool.and_eq_true, List.all_eq_true] at hk
  exact hk.1.1.1.1.1.1

/-- Non-vacuity: an enum is declared between two records that mention each other; the theorem
applies. -/
example : ∃ out out' j j' p p' before after before' added after',
    Converts Builder.new (exReimportWorld exLocalFiles) 9 out j ∧
    Converts Builder.new (exReimportWorld exLocalFiles) 9 out' j' ∧
    out.file = .protocol p ∧ out'.file = .protocol p' ∧ CoherentProtocol p ∧ CoherentProtocol p' ∧
    out.registry = before ++ after ∧ out'.registry = before' ++ added ++ after' ∧
    SameTypesInOrder before before' ∧ SameTypesInOrder after after' ∧ SameButTypes p p' ∧
    added.length = 1 ∧
    ∀ kt ∈ added, ∀ x, Mentions (definition out'.registry) kt.2 x → x ∉ after'.map Prod.fst := by
  have ha := exLocal_converts (exLocal_all "a" (by simp))
  have hb := exLocal_converts (exLocal_all "b" (by simp))
  have na := exLocal_all "a" (by simp)
  have nb := exLocal_all "b" (by simp)
  simp only [exLocalChecks, Bool.and_eq_true] at na nb
  have hk := exLocal_checks
  simp only [Bool.and_eq_true, List.all_eq_true, decide_eq_true_eq] at hk
  obtain ⟨⟨⟨⟨⟨⟨-, k2⟩, k3⟩, k4⟩, k5⟩, k6⟩, k7⟩ := hk
  obtain ⟨⟨_, _, _, _, _, h⟩, _⟩ := ha.compiled
  obtain ⟨⟨_, _, _, _, _, h'⟩, _⟩ := hb.compiled
  have ca := (coherent_of_namespaced h (k2 "a" (by simp)) (noDefs_of_check na.2)).2
  have cb := (coherent_of_namespaced h' (k2 "b" (by simp)) (noDefs_of_check nb.2)).2
  clear na nb k2 h h'
  generalize exLocalOut "a" = out at *
  generalize exLocalOut "b" = out' at *
  generalize exLocalDoc "a" = j at *
  generalize exLocalDoc "b" = j' at *
  obtain ⟨p, p', hp, hp', hs⟩ := sameButTypes_of_check k7
  unfold CoherentOutput at ca cb
  rw [hp] at ca
  rw [hp'] at cb
  refine ⟨out, out', j, j', p, p', out.registry.take 1, out.registry.drop 1,
    out'.registry.take 1, (out'.registry.drop 1).take 1, out'.registry.drop 2, ha, hb, hp, hp', ca, cb,
    (List.take_append_drop ..).symm, ?_, sameTypes_of_check k4, sameTypes_of_check k5, hs, ?_, ?_⟩
  · rw [List.append_assoc, show List.drop 2 out'.registry = List.drop 1 (List.drop 1 out'.registry) by
      rw [List.drop_drop], List.take_append_drop, List.take_append_drop]
  · simp [k3]
  · intro kt hkt x hx
    have he := k6 kt hkt
    revert he hx
    cases kt.2 with
    | enum =>
      intro hx
      cases hx with
      | here h => cases h
      | step h => cases h
    | _ => intro _ he; cases he

/-- Mentioned types are declared. -/
theorem sameWithin_of_all {b b' : Builder} {w : World} {fuel : Nat} {text name : String} {dir : Path}
    {path : Option Path} {out : CompileOutput} {r : Registry}
    (h : b.compile w fuel text name dir path = (.ok out, b'))
    (hs : ∀ x ∈ out.registry.names, SameDefinition out.registry r x) {t : Schema}
    (ht : t ∈ out.registry.schemas) : SameWithin out.registry r t := by
  intro x hx
  refine hs x ?_
  induction hx with
  | here hr => exact (compile_refs h).1 _ ht _ _ hr
  | step hr hres _ ih =>
    refine ih ?_
    unfold definition at hres
    obtain ⟨kt, hf, rfl⟩ := Option.map_eq_some_iff.mp hres
    exact List.mem_map.mpr ⟨kt, List.mem_of_find?_eq_some hf, rfl⟩

/-- What extraction has returned. -/
def exLocalSchemas (p : Path) : List (String × Json) :=
  match (Builder.new.extract (exReimportWorld exLocalFiles) 9 p).1 with
  | .ok res => res.schemas
  | .error _ => []

theorem exLocal_extract_checks : ((["a", "b"].all fun p =>
      (Builder.new.extract (exReimportWorld exLocalFiles) 9 p).1.toBool) &&
    decide (∀ x ∈ (exLocalOut "a").registry.names,
      (definition (exLocalOut "a").registry x).map Schema.bare =
        (definition (exLocalOut "b").registry x).map Schema.bare) &&
    decide (((exLocalOut "a").registry[1]?).map Prod.fst = some "p.B") &&
    decide (((exLocalOut "b").registry[2]?).map Prod.fst = some "p.B")) = true := by
  unfold exLocalOut
  decide +kernel

attribute [local irreducible] exLocalSchemas Builder.extract

theorem exLocal_extracts {p : Path} (h : exLocalChecks p = true)
    (he : (Builder.new.extract (exReimportWorld exLocalFiles) 9 p).1.toBool = true) :
    Extracts Builder.new (exReimportWorld exLocalFiles) 9 (exLocalOut p) (exLocalSchemas p) := by
  simp only [exLocalChecks, Bool.and_eq_true] at h
  replace h := h.1.1
  unfold exLocalOut exLocalSchemas compiledOr
  cases hc : Builder.new.compileFile (exReimportWorld exLocalFiles) 9 p with
  | mk r b' =>
    cases hv : Builder.new.extract (exReimportWorld exLocalFiles) 9 p with
    | mk r2 b'' =>
      rw [hc] at h
      rw [hv] at he
      cases r with
      | error e => cases h
      | ok out =>
        cases r2 with
        | error e => cases he
        | ok res => exact .file rfl hc hv rfl

/-- Non-vacuity: the schema of a record that mentions another one, which mentions it, is at different
places in the two lists. -/
example : ∃ out out' docs docs' t t' d,
    Extracts Builder.new (exReimportWorld exLocalFiles) 9 out docs ∧
    Extracts Builder.new (exReimportWorld exLocalFiles) 9 out' docs' ∧
    out.registry[1]? = some ("p.B", t) ∧ out'.registry[2]? = some ("p.B", t') ∧
    docs[1]? = some d ∧ docs'[2]? = some d := by
  have hk := exLocal_extract_checks
  simp only [Bool.and_eq_true, List.all_eq_true] at hk
  obtain ⟨⟨⟨k1, k2⟩, k3⟩, k4⟩ := hk
  have ha := exLocal_extracts (exLocal_all "a" (by simp)) (k1 "a" (by simp))
  have hb := exLocal_extracts (exLocal_all "b" (by simp)) (k1 "b" (by simp))
  have hs : ∀ x ∈ (exLocalOut "a").registry.names,
      SameDefinition (exLocalOut "a").registry (exLocalOut "b").registry x := by
    have := of_decide_eq_true k2
    exact this
  replace k3 := of_decide_eq_true k3
  replace k4 := of_decide_eq_true k4
  clear k1 k2
  generalize exLocalOut "a" = out at *
  generalize exLocalOut "b" = out' at *
  generalize exLocalSchemas "a" = docs at *
  generalize exLocalSchemas "b" = docs' at *
  obtain ⟨⟨x, t⟩, e1, h1⟩ := Option.map_eq_some_iff.mp k3
  obtain ⟨⟨x', t'⟩, e2, h2⟩ := Option.map_eq_some_iff.mp k4
  dsimp only at h1 h2
  subst h1 h2
  obtain ⟨⟨_, _, _, _, _, hc⟩, _⟩ := ha.compiled
  obtain ⟨d, d1, d2⟩ := C65_extract ha hb e1 e2
    (hs _ (List.mem_map.mpr ⟨_, List.mem_of_getElem? e1, rfl⟩))
    (sameWithin_of_all hc hs (List.mem_map.mpr ⟨_, List.mem_of_getElem? e1, rfl⟩))
  exact ⟨out, out', docs, docs', t, t', d, ha, hb, e1, e2, d1, d2⟩

/-- **C65 fails** where namespaces are mixed: a protocol in a namespace that also imports, after all
its own types, a type in no namespace.  The import changes what is written for a type before it. -/
theorem C65_fails_other_namespace : ∃ out out' j j' p p' first added r r' rest rest',
    Converts Builder.new (exReimportWorld exLocalFiles) 9 out j ∧
    Converts Builder.new (exReimportWorld exLocalFiles) 9 out' j' ∧
    out.file = .protocol p ∧ out'.file = .protocol p' ∧
    out'.registry = first ++ added ∧ SameTypesInOrder out.registry first ∧ SameButTypes p p' ∧
    j.get? "types" = some (.arr (r :: rest)) ∧ j'.get? "types" = some (.arr (r' :: rest')) ∧
    r ≠ r' := by
  have hc := exLocal_converts (exLocal_all "c" (by simp))
  have hd := exLocal_converts (exLocal_all "d" (by simp))
  have hk := exLocal_fails
  simp only [Bool.and_eq_true] at hk
  obtain ⟨⟨k1, k2⟩, k3⟩ := hk
  generalize exLocalOut "c" = out at *
  generalize exLocalOut "d" = out' at *
  generalize exLocalDoc "c" = j at *
  generalize exLocalDoc "d" = j' at *
  obtain ⟨p, p', hp, hp', hs⟩ := sameButTypes_of_check k2
  split at k3
  · rename_i r rest r' rest' e1 e2
    exact ⟨out, out', j, j', p, p', _, _, r, r', rest, rest', hc, hd, hp, hp',
      (List.take_append_drop 2 out'.registry).symm, sameTypes_of_check k1, hs, e1, e2,
      of_decide_eq_true k3⟩
  · cases k3

end

end Avdl.Props
