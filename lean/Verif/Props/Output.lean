import Verif.Lemmas.ProtocolEvents
/-!
# C03-C07: the JSON output

Specification used: `Spec/OnePass.lean` — `protocolEvents`/`events` turn an output document into
the sequence of definitions and references a one-pass Avro parser meets, `run` is that parser's
check, `defs` lists the definitions.
-/

namespace Avdl

namespace Props

open Spec

/-! ### A concrete protocol used for non-vacuity: two mutually recursive types, declared in an
order that forces in-lining, and a message. -/

/-- `record A { B b; }` in namespace `p`. -/
def exA : Schema :=
  .record "A" (some "p") none [.mk "b" (.union [.prim .null, .ref "B" (some "p") [] none] false)
    none none none [] []] false [] []
/-- `record B { array<A> as; }` in namespace `q`. -/
def exB : Schema :=
  .record "B" (some "p") (some "doc") [.mk "as" (.array (.ref "A" (some "p") [] none) []) none none
    none [] []] false [] [("note", .str "x")]
/-- `A get(B b)`. -/
def exMsg : Message :=
  { doc := none, props := [], request := [.mk "b" (.ref "B" (some "p") [] none) none none none [] []],
    response := .ref "A" (some "p") [] none, errors := some [.ref "B" (some "p") [] none], oneWay := false }
/-- The protocol. -/
def exP : Protocol :=
  { name := "P", ns := some "p", doc := none, props := [], types := [exA, exB],
    messages := [("get", exMsg)] }

theorem exTable : TableOk (some "p") [exA, exB] where
  flat := by decide
  distinct := by decide
  out := by
    intro t ht
    have hA : makeFullName "A" (some "p") ∈ fullNames [exA, exB] := by decide
    have hB : makeFullName "B" (some "p") ∈ fullNames [exA, exB] := by decide
    simp only [List.mem_cons, List.not_mem_nil, or_false] at ht
    rcases ht with rfl | rfl
    · exact ⟨by unfold OutNode; decide, by unfold OutField; decide,
        ⟨trivial, trivial, ⟨by decide, hB⟩, trivial⟩, trivial⟩
    · exact ⟨by unfold OutNode; decide, by unfold OutField; decide,
        ⟨by unfold OutNode; decide, by decide, hA⟩, trivial⟩
  ns := by decide

theorem exP_ok : ProtocolOk exP where
  table := exTable
  messages := by
    intro nm h
    have hA : makeFullName "A" (some "p") ∈ fullNames [exA, exB] := by decide
    have hB : makeFullName "B" (some "p") ∈ fullNames [exA, exB] := by decide
    simp only [exP, List.mem_cons, List.not_mem_nil, or_false] at h
    subst h
    refine ⟨?_, ⟨rfl, by decide, hA⟩, ?_, by decide⟩
    · intro f hf
      simp only [exMsg, List.mem_cons, List.not_mem_nil, or_false] at hf
      subst hf
      exact ⟨rfl, ⟨by decide, hB⟩, by unfold OutField; decide⟩
    · intro es hes s hs
      simp only [exMsg, Option.some.injEq] at hes
      subst hes
      simp only [List.mem_cons, List.not_mem_nil, or_false] at hs
      subst hs
      exact ⟨rfl, by decide, hB⟩
  props := by decide

/-! ### C05 -/

mutual
theorem collectNamed_named (d : Option String) : ∀ (s : Schema) (lk : Lookup),
    LookupNamed lk → LookupNamed (collectNamed d s lk)
  | .record n ns doc fs er al ps, lk, h => by
      simp only [collectNamed]
      apply collectNamedFields_named
      intro kt hkt
      rcases List.mem_cons.mp hkt with rfl | hkt
      · trivial
      · exact h kt hkt
  | .enum .., lk, h => by
      simp only [collectNamed]
      intro kt hkt
      rcases List.mem_cons.mp hkt with rfl | hkt
      · trivial
      · exact h kt hkt
  | .fixed .., lk, h => by
      simp only [collectNamed]
      intro kt hkt
      rcases List.mem_cons.mp hkt with rfl | hkt
      · trivial
      · exact h kt hkt
  | .array i _, lk, h => by simpa only [collectNamed] using collectNamed_named d i lk h
  | .map i _, lk, h => by simpa only [collectNamed] using collectNamed_named d i lk h
  | .union ts _, lk, h => by simpa only [collectNamed] using collectNamedList_named d ts lk h
  | .prim _, lk, h | .annotated .., lk, h | .logical .., lk, h | .ref .., lk, h => by
      simpa only [collectNamed] using h
theorem collectNamedFields_named (d : Option String) : ∀ (fs : List Field) (lk : Lookup),
    LookupNamed lk → LookupNamed (collectNamedFields d fs lk)
  | [], lk, h => by simpa only [collectNamedFields] using h
  | .mk _ s _ _ _ _ _ :: fs, lk, h => by
      simp only [collectNamedFields]
      exact collectNamedFields_named d fs _ (collectNamed_named d s lk h)
theorem collectNamedList_named (d : Option String) : ∀ (ss : List Schema) (lk : Lookup),
    LookupNamed lk → LookupNamed (collectNamedList d ss lk)
  | [], lk, h => by simpa only [collectNamedList] using h
  | s :: ss, lk, h => by
      simp only [collectNamedList]
      exact collectNamedList_named d ss _ (collectNamed_named d s lk h)
end

theorem buildLookup_named (types : List Schema) (d : Option String) :
    LookupNamed (buildLookup types d) :=
  collectNamedList_named d types [] (by intro kt h; simp at h)

/-- Eventually constant: the recursion terminates with result `r` for every sufficient fuel. -/
def Terminates {α : Type} (f : Nat → Option α) : Prop := ∃ r N, ∀ n, N ≤ n → f n = some r

theorem mapAccum_terminates {α β : Type} {f : Nat → α → Known → Option (β × Known)} (l : List α)
    (h : ∀ a ∈ l, ∀ K, Terminates fun n => f n a K) (K : Known) :
    Terminates fun n => mapAccum (f n) l K := by
  induction l generalizing K with
  | nil => exact ⟨([], K), 0, fun _ _ => rfl⟩
  | cons a as ih =>
    obtain ⟨⟨b, K1⟩, N1, h1⟩ := h a (by simp) K
    obtain ⟨⟨bs, K2⟩, N2, h2⟩ := ih (fun a ha => h a (List.mem_cons_of_mem _ ha)) K1
    refine ⟨(b :: bs, K2), max N1 N2, fun n hn => ?_⟩
    simp only at h1 h2 ⊢
    simp only [mapAccum]
    rw [h1 n (by omega)]
    simp only
    rw [h2 n (by omega)]

/-- C05: serializing any schema terminates, whatever it refers to and whatever the type table
(recursive, mutually recursive, with dangling references), and the result does not depend on the
fuel. -/
theorem C05_schema_serialization_terminates (types : List Schema) (dflt : Option String)
    (s : Schema) (encl : Option String) (known : Known) :
    Terminates fun n => schemaToJson (buildLookup types dflt) n s encl known := by
  obtain ⟨j, K', h, -⟩ := ser_total _ (buildLookup_named types dflt) _ s encl known (Nat.le_refl _)
  exact ⟨(j, K'), _, fun n hn => ser_mono _ hn h⟩

theorem field_terminates (lk : Lookup) (hlk : LookupNamed lk) (encl : Option String) (f : Field)
    (K : Known) : Terminates fun n => fieldToJson (fun s k => schemaToJson lk n s encl k) f K := by
  obtain ⟨j, K', h, -⟩ := ser_total _ hlk _ f.schema encl K (Nat.le_refl _)
  refine ⟨(.obj (fieldObj f j), K'), serBound lk f.schema K, fun n hn => ?_⟩
  simp only [fieldToJson, ser_mono _ hn h]

theorem message_terminates (lk : Lookup) (hlk : LookupNamed lk) (encl : Option String)
    (m : Message) (K : Known) : Terminates fun n => messageToJson lk n encl m K := by
  obtain ⟨⟨req, K1⟩, N1, h1⟩ := mapAccum_terminates
    (f := fun n => fieldToJson fun s k => schemaToJson lk n s encl k) m.request
    (fun f _ K => field_terminates lk hlk encl f K) K
  obtain ⟨resp, K2, h2, -⟩ := ser_total _ hlk _ m.response encl K1 (Nat.le_refl _)
  simp only at h1
  cases he : m.errors with
  | none =>
    refine ⟨(.obj (messageObj m req resp none), K2), max N1 (serBound lk m.response K1),
      fun n hn => ?_⟩
    simp only [messageToJson]
    rw [h1 n (by omega)]
    simp only
    rw [ser_mono _ (by omega) h2]
    simp only [he]
  | some es =>
    obtain ⟨⟨ej, K3⟩, N3, h3⟩ := mapAccum_terminates
      (f := fun n s k => schemaToJson lk n s encl k) es
      (fun s _ K => by
        obtain ⟨j, K', h, -⟩ := ser_total _ hlk _ s encl K (Nat.le_refl _)
        exact ⟨(j, K'), _, fun n hn => ser_mono _ hn h⟩) K2
    simp only at h3
    refine ⟨(.obj (messageObj m req resp (some ej)), K3),
      max (max N1 (serBound lk m.response K1)) N3, fun n hn => ?_⟩
    simp only [messageToJson]
    rw [h1 n (by omega)]
    simp only
    rw [ser_mono _ (by omega) h2]
    simp only [he]
    rw [h3 n (by omega)]

/-- C05: producing the JSON of any protocol terminates, with a result independent of the fuel. -/
theorem C05_protocol_serialization_terminates (p : Protocol) :
    Terminates fun n => protocolToJson n p := by
  have hlk := buildLookup_named p.types p.ns
  obtain ⟨⟨types, K⟩, N1, h1⟩ := mapAccum_terminates
    (f := fun n s k => schemaToJson (buildLookup p.types p.ns) n s p.ns k) p.types
    (fun s _ K => C05_schema_serialization_terminates p.types p.ns s p.ns K) []
  obtain ⟨⟨msgs, K2⟩, N2, h2⟩ := mapAccum_terminates
    (f := fun n (nm : String × Message) k =>
      (messageToJson (buildLookup p.types p.ns) n p.ns nm.2 k).map fun jk => ((nm.1, jk.1), jk.2))
    p.messages
    (fun nm _ K => by
      obtain ⟨⟨j, K'⟩, N, h⟩ := message_terminates _ hlk p.ns nm.2 K
      exact ⟨((nm.1, j), K'), N, fun n hn => by simp only at h ⊢; rw [h n hn]; rfl⟩) K
  simp only at h1 h2
  refine ⟨.obj (protocolObj p types msgs), max N1 N2, fun n hn => ?_⟩
  simp only [protocolToJson]
  rw [h1 n (by omega)]
  simp only
  rw [h2 n (by omega)]

/-- Non-vacuity: mutually recursive types serialize (to an actual document). -/
example : (protocolToJson 8 exP).isSome = true := by decide
/-- A self-recursive and a dangling reference. -/
example : (schemaToJson (buildLookup [.record "R" none none
    [.mk "r" (.ref "R" none [] none) none none none [] [],
     .mk "x" (.ref "Missing" none [] none) none none none [] []] false [] []] none) 4
    (.ref "R" none [] none) none []).isSome = true := by decide

/-! ### C03, C04, C06 -/

/-- The document of a coherent protocol is accepted by the one-pass parser (partial: see the
hypothesis `ProtocolOk`). -/
theorem C04_definitions_precede_references_partial (p : Protocol) (hp : ProtocolOk p) (n : Nat)
    (j : Json) (h : protocolToJson n p = some j) :
    (run (protocolEvents j) []).isSome = true ∧
    ∀ before after x, protocolEvents j = before ++ .use x :: after → x ∈ defs before := by
  obtain ⟨K, hrun, -⟩ := protocol_events hp h
  refine ⟨by rw [hrun]; rfl, fun before after x hs => ?_⟩
  simpa using run_use hrun hs

/-- C03 (partial: hypothesis `ProtocolOk`): no full name is defined twice in the document. -/
theorem C03_defined_at_most_once_partial (p : Protocol) (hp : ProtocolOk p) (n : Nat) (j : Json)
    (h : protocolToJson n p = some j) : (defs (protocolEvents j)).Nodup := by
  obtain ⟨K, hrun, -⟩ := protocol_events hp h
  have h1 := run_nodup List.nodup_nil hrun
  rw [run_defs hrun, List.append_nil] at h1
  exact (List.reverse_perm _).nodup_iff.mp h1

/-- C06 (partial: hypothesis `ProtocolOk`): the document defines exactly the registered types:
its definitions are a rearrangement of the full names of the type list. -/
theorem C06_defines_exactly_partial (p : Protocol) (hp : ProtocolOk p) (n : Nat) (j : Json)
    (h : protocolToJson n p = some j) :
    (defs (protocolEvents j)).Perm (p.types.filterMap Schema.fullName?) := by
  obtain ⟨K, hrun, hK⟩ := protocol_events hp h
  have hnd := C03_defined_at_most_once_partial p hp n j h
  have hr := run_defs hrun
  rw [List.append_nil] at hr
  refine (List.perm_ext_iff_of_nodup hnd hp.table.distinct).mpr fun x => ?_
  rw [← List.mem_reverse, ← hr]
  exact hK x

/-- Non-vacuity, and what the document looks like: `B` is defined inside `A`, the later top-level
entry for `B` is dropped. -/
example : ∃ j, protocolToJson 8 exP = some j ∧
    protocolEvents j = [.defn "p.A", .defn "p.B", .use "p.A", .use "p.B", .use "p.A", .use "p.B"] ∧
    defs (protocolEvents j) = ["p.A", "p.B"] ∧ ProtocolOk exP := by
  refine ⟨(protocolToJson 8 exP).get (by decide), by decide, by decide, by decide, exP_ok⟩

/-! ### C07 -/

/-- C07 (partial: hypothesis `TableOk none`, i.e. coherent names): extraction yields one document
per registered type, in order and under its simple name; each document is the definition of that
type, and is self-contained: accepted by the one-pass parser started with no known names. -/
theorem C07_extracted_self_contained_partial (types : List Schema) (ht : TableOk none types)
    (n : Nat) (out : List (String × Json)) (h : extractSchemas n types = some out) :
    out.map (fun nj => some nj.1) = types.map Schema.name? ∧
    ∀ tj ∈ types.zip (out.map Prod.snd),
      (∃ evs, events "" tj.2 = .defn (tj.1.fullName?.getD "") :: evs) ∧
      (run (events "" tj.2) []).isSome = true := by
  have key : ∀ ts, (∀ t ∈ ts, t ∈ types) → ∀ out,
      extractSchemas.go n (buildLookup types none) ts = some out →
      out.map (fun nj => some nj.1) = ts.map Schema.name? ∧
      ∀ tj ∈ ts.zip (out.map Prod.snd),
        (∃ evs, events "" tj.2 = .defn (tj.1.fullName?.getD "") :: evs) ∧
        (run (events "" tj.2) []).isSome = true := by
    intro ts
    induction ts with
    | nil =>
      intro _ out h
      simp only [extractSchemas.go, Option.some.injEq] at h
      subst h
      exact ⟨rfl, by simp⟩
    | cons t ts ih =>
      intro hts out h
      have htm := hts t (by simp)
      have hnamed := Schema.isNamed_of_flatDef (ht.flat t htm)
      obtain ⟨x, hx⟩ := IsNamed_fullName hnamed
      obtain ⟨nm, hnm⟩ : ∃ nm, t.name? = some nm := by
        cases t <;> simp_all [Schema.IsNamed, Schema.name?]
      simp only [extractSchemas.go, hnm] at h
      cases h1 : schemaToJson (buildLookup types none) n t none [] with
      | none => rw [h1] at h; cases h
      | some r =>
        obtain ⟨j, K⟩ := r
        rw [h1] at h
        simp only at h
        cases h2 : extractSchemas.go n (buildLookup types none) ts with
        | none => rw [h2] at h; cases h
        | some rest =>
          rw [h2] at h
          simp only [Option.map_some, Option.some.injEq] at h
          subst h
          obtain ⟨i1, i2⟩ := ih (fun t ht => hts t (List.mem_cons_of_mem _ ht)) rest h2
          have hrun := (ser_events _ ht.lookupOk n).2 t none [] j K hnamed
            (by rw [ht.has_eq]; exact ht.out t htm) (fun _ => rfl) (by simp) h1
          have hhead := ser_def_head hnamed (ht.out t htm) (encl := none) (fun _ => rfl) hx
            (by simp) h1
          refine ⟨by simp [hnm, i1], ?_⟩
          intro tj htj
          simp only [List.map_cons, List.zip_cons_cons, List.mem_cons] at htj
          rcases htj with rfl | htj
          · refine ⟨?_, ?_⟩
            · simp only [hx, Option.getD_some]; exact hhead
            · have : run (events "" j) [] = some K := hrun
              simp only [this, Option.isSome_some]
          · exact i2 tj htj
  exact key types (fun _ h => h) out h

theorem exTable_none : TableOk none [exA, exB] :=
  { exTable with ns := by decide }

/-- Non-vacuity: each of two mutually recursive types is extracted with the other one inside. -/
example : ∃ out, extractSchemas 8 [exA, exB] = some out ∧
    out.map Prod.fst = ["A", "B"] ∧
    out.map (fun nj => defs (events "" nj.2)) = [["p.A", "p.B"], ["p.B", "p.A"]] :=
  ⟨(extractSchemas 8 [exA, exB]).get (by decide), by decide, by decide, by decide⟩

/-- C07: extraction always terminates. -/
theorem C07_extraction_terminates (types : List Schema) :
    Terminates fun n => extractSchemas n types := by
  have key : ∀ ts, Terminates fun n => extractSchemas.go n (buildLookup types none) ts := by
    intro ts
    induction ts with
    | nil => exact ⟨[], 0, fun _ _ => rfl⟩
    | cons t ts ih =>
      obtain ⟨out, N1, h1⟩ := ih
      cases hn : t.name? with
      | none => exact ⟨out, N1, fun n hN => by simp only [extractSchemas.go, hn]; exact h1 n hN⟩
      | some nm =>
        obtain ⟨⟨j, K⟩, N2, h2⟩ := C05_schema_serialization_terminates types none t none []
        refine ⟨(nm, j) :: out, max N1 N2, fun n hN => ?_⟩
        simp only at h1 h2
        simp only [extractSchemas.go, hn, h2 n (by omega), h1 n (by omega)]
        rfl
  exact key types

/-! ### Where the full properties fail

In each case the inputs are reachable: types without namespace come from JSON files (or
namespace-less IDL files) imported into a protocol that has a namespace. -/

/-- `record A { B b; }` and `record B {}`, both without namespace, in this order. -/
def badA : Schema := .record "A" none none [.mk "b" (.ref "B" none [] none) none none none [] []] false [] []
/-- See `badA`. -/
def badB : Schema := .record "B" none none [] false [] []

/-- A protocol with namespace `p`, the given types and no messages. -/
def protoP (types : List Schema) : Protocol :=
  { name := "P", ns := some "p", doc := none, props := [], types := types, messages := [] }

/-- C04 fails: two namespace-less types imported into a protocol with namespace `p`, the first
referring to the second: the reference is written before the definition. -/
theorem C04_fails_null_namespace_import :
    ∃ (p : Protocol) (j : Json), p.ns = some "p" ∧ p.types = [badA, badB] ∧ p.messages = [] ∧
      protocolToJson 8 p = some j ∧ run (protocolEvents j) [] = none :=
  ⟨(protoP [badA, badB]),
    (protocolToJson 8 (protoP [badA, badB])).get (by decide), rfl, rfl, rfl, by decide, by decide⟩

/-- C06 fails likewise: the document defines `p.B`, which is not the registered type `B`. -/
theorem C06_fails_null_namespace_import :
    ∃ (p : Protocol) (j : Json), p.ns = some "p" ∧ p.types = [badB] ∧ protocolToJson 8 p = some j ∧
      defs (protocolEvents j) = ["p.B"] ∧ fullNames p.types = ["B"] :=
  ⟨(protoP [badB]),
    (protocolToJson 8 (protoP [badB])).get (by decide), rfl, rfl, by decide, by decide, by decide⟩

/-- C03 fails: with both `p.B` and a namespace-less `B` registered, `p.B` is defined twice. -/
theorem C03_fails_null_namespace_import :
    ∃ (p : Protocol) (j : Json), p.ns = some "p" ∧ fullNames p.types = ["p.B", "B"] ∧ protocolToJson 8 p = some j ∧
      defs (protocolEvents j) = ["p.B", "p.B"] :=
  ⟨(protoP [.record "B" (some "p") none [] false [] [], badB]),
    (protocolToJson 8 (protoP [.record "B" (some "p") none [] false [] [], badB])).get (by decide),
    rfl, by decide, by decide, by decide⟩

/-- A wrong definition is in-lined: a reference to `p.B` (declared later, an empty record) is
replaced by the definition of the namespace-less enum `B`, because both are looked up under
`p.B`. -/
theorem C04_fails_wrong_type_inlined :
    ∃ p : Protocol, p.ns = some "p" ∧ p.types = [
        .record "A" (some "p") none [.mk "b" (.ref "B" (some "p") [] none) none none none [] []] false [] [],
        .record "B" (some "p") none [] false [] [], .enum "B" none none ["X"] none [] []] ∧
      (buildLookup p.types p.ns).get? "p.B" = some (.enum "B" none none ["X"] none [] []) :=
  ⟨(protoP _),
    rfl, rfl, rfl⟩

/-- C07 fails: a namespaced type referring to a namespace-less one (possible through JSON
imports): the extracted schema defines `p.B` in place of `B`. -/
theorem C07_fails_null_namespace :
    ∃ out, extractSchemas 8 [.record "A" (some "p") none
        [.mk "b" (.ref "B" none [] none) none none none [] []] false [] [], badB] = some out ∧
      out.map (fun nj => defs (events "" nj.2)) = [["p.A", "p.B"], ["B"]] :=
  ⟨(extractSchemas 8 [.record "A" (some "p") none
        [.mk "b" (.ref "B" none [] none) none none none [] []] false [] [], badB]).get (by decide),
    by decide, by decide⟩

end Props
end Avdl
