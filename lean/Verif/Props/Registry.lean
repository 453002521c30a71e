import Verif.Lemmas.Registry
import Verif.Lemmas.LegalName
/-!
# Properties C08, C09: the registry

Histories of registration attempts, and legal names.
-/

namespace Avdl.Props

open Spec

/-- A registration attempt whose error, if any, is ignored (as
/repo/src/import.rs does in `flatten_and_register`; `register` leaves the map alone when it
returns an error, /repo/src/resolve.rs 109-137). -/
def attempt [CharTables] (r : Registry) (s : Schema) : Registry :=
  match r.register s with
  | .ok r' => r'
  | .error _ => r

/-- The registry after a history of attempts. -/
def registerAll [CharTables] (hist : List Schema) : Registry := hist.foldl attempt []

/-- The schema is the definition of a type with the given simple name and namespace. -/
inductive DefinesType : Schema → String → Option String → Prop
  | record {n ns d fs e al ps} : DefinesType (.record n ns d fs e al ps) n ns
  | enum {n ns d sy df al ps} : DefinesType (.enum n ns d sy df al ps) n ns
  | fixed {n ns d sz al ps} : DefinesType (.fixed n ns d sz al ps) n ns

/-- The schema is a definition of a named type with a legal name and namespace. -/
def Acceptable [CharTables] (s : Schema) : Prop :=
  ∃ n ns, DefinesType s n ns ∧ LegalName n ∧ LegalNamespace ns

open Classical in
/-- Specification of a history's outcome: the acceptable attempts whose full name was not
accepted before, in order. -/
noncomputable def firstAccepted [CharTables] (seen : List String) : List Schema → List (String × Schema)
  | [] => []
  | s :: t =>
      match s.fullName? with
      | none => firstAccepted seen t
      | some full =>
          if Acceptable s ∧ full ∉ seen then (full, s) :: firstAccepted (full :: seen) t
          else firstAccepted seen t

/-- When and how a registration succeeds. -/
theorem register_ok_iff [CharTables] (r : Registry) (s : Schema) (r' : Registry) :
    r.register s = .ok r' ↔
      Acceptable s ∧ ∃ full, s.fullName? = some full ∧ full ∉ r.names ∧ r' = r ++ [(full, s)] := by
  have key : ∀ (n : String) (ns : Option String),
      ((if (!validateSchemaName n ns) = true then Except.error (RegErr.invalidName n ns)
        else if r.contains (makeFullName n ns) = true then .error (.duplicate (makeFullName n ns))
        else .ok (r ++ [(makeFullName n ns, s)])) = Except.ok r') ↔
      (LegalName n ∧ LegalNamespace ns) ∧ makeFullName n ns ∉ r.names ∧
        r' = r ++ [(makeFullName n ns, s)] := by
    intro n ns
    rw [← validateSchemaName_iff]
    cases h : validateSchemaName n ns with
    | false => simp
    | true =>
      simp only [Bool.not_true, Bool.false_eq_true, if_false, true_and]
      unfold Registry.contains
      by_cases hk : makeFullName n ns ∈ r.names
      · rw [if_pos ((Registry.find?_isSome_iff _ _).mpr hk)]
        simp [hk]
      · rw [if_neg (mt (Registry.find?_isSome_iff _ _).mp hk)]
        simp only [Except.ok.injEq, hk, not_false_eq_true, true_and]
        exact ⟨fun h => h.symm, fun h => h.symm⟩
  cases s with
  | record n ns d fs e al ps =>
    simp only [Registry.register]
    rw [key]
    constructor
    · rintro ⟨h1, h2, h3⟩; exact ⟨⟨n, ns, by constructor, h1⟩, _, rfl, h2, h3⟩
    · rintro ⟨⟨n', ns', h1, h2⟩, full, hf, h3, h4⟩
      cases h1; cases hf; exact ⟨h2, h3, h4⟩
  | enum n ns d sy df al ps =>
    simp only [Registry.register]
    rw [key]
    constructor
    · rintro ⟨h1, h2, h3⟩; exact ⟨⟨n, ns, by constructor, h1⟩, _, rfl, h2, h3⟩
    · rintro ⟨⟨n', ns', h1, h2⟩, full, hf, h3, h4⟩
      cases h1; cases hf; exact ⟨h2, h3, h4⟩
  | fixed n ns d sz al ps =>
    simp only [Registry.register]
    rw [key]
    constructor
    · rintro ⟨h1, h2, h3⟩; exact ⟨⟨n, ns, by constructor, h1⟩, _, rfl, h2, h3⟩
    · rintro ⟨⟨n', ns', h1, h2⟩, full, hf, h3, h4⟩
      cases h1; cases hf; exact ⟨h2, h3, h4⟩
  | _ =>
    simp only [Registry.register, reduceCtorEq, false_iff, not_and]
    rintro ⟨n', ns', h1, h2⟩; cases h1

theorem registerAll_from [CharTables] (hist : List Schema) : ∀ (r : Registry),
    hist.foldl attempt r = r ++ firstAccepted r.names hist ∧
    (∀ (seen : List String), (∀ x, x ∈ seen ↔ x ∈ r.names) →
      firstAccepted seen hist = firstAccepted r.names hist) := by
  induction hist with
  | nil => intro r; simp [firstAccepted]
  | cons s t ih =>
    intro r
    simp only [List.foldl_cons, firstAccepted]
    cases hf : s.fullName? with
    | none =>
      have : attempt r s = r := by
        unfold attempt
        split
        · rename_i r' h
          obtain ⟨_, full, h, _⟩ := (register_ok_iff r s r').mp h
          rw [hf] at h; cases h
        · rfl
      rw [this]
      exact ih r
    | some full =>
      by_cases h : Acceptable s ∧ full ∉ r.names
      · have hreg : attempt r s = r ++ [(full, s)] := by
          unfold attempt
          rw [(register_ok_iff r s (r ++ [(full, s)])).mpr ⟨h.1, full, hf, h.2, rfl⟩]
        have h2 := (ih (r ++ [(full, s)])).2
        constructor
        · simp only [hreg, (ih _).1, if_pos h]
          rw [h2 (full :: r.names) (by
            intro x; simp [Registry.names, or_comm])]
          simp
        · intro seen hs
          simp only
          rw [if_pos h, if_pos ⟨h.1, by rw [hs]; exact h.2⟩, h2 (full :: r.names) (by intro x; simp [Registry.names, or_comm]),
            h2 (full :: seen) (by intro x; simp [hs, Registry.names, or_comm])]
      · have hreg : attempt r s = r := by
          unfold attempt
          split
          · rename_i r' hr
            obtain ⟨ha, full', h1, h2, _⟩ := (register_ok_iff r s r').mp hr
            rw [hf] at h1; cases h1
            exact absurd ⟨ha, h2⟩ h
          · rfl
        constructor
        · simp only [hreg, if_neg h]; exact (ih r).1
        · intro seen hs
          simp only
          rw [if_neg h, if_neg (by rw [hs]; exact h)]
          exact (ih r).2 seen hs

/-! ## C08 -/

/-- **C08, refinement.** After any history of registration attempts the registry lists exactly
the first accepted definition of each full name, in the order of acceptance. -/
theorem C08_registry_is_first_accepted [CharTables] (hist : List Schema) :
    registerAll hist = firstAccepted [] hist := by
  have := (registerAll_from hist []).1
  simpa [registerAll, Registry.names] using this

/-- Full names in the registry are distinct and lookup by full name returns the entry. -/
theorem names_attempt [CharTables] (r : Registry) (s : Schema) (h : r.names.Nodup) :
    (attempt r s).names.Nodup := by
  unfold attempt
  split
  · rename_i r' hr
    obtain ⟨_, full, _, hn, rfl⟩ := (register_ok_iff r s r').mp hr
    simp only [Registry.names, List.map_append, List.map_cons, List.map_nil]
    rw [List.nodup_append]
    refine ⟨h, by simp, ?_⟩
    intro a ha b hb
    simp only [List.mem_cons, List.not_mem_nil, or_false] at hb
    subst hb
    exact fun he => hn (by rw [← he]; exact ha)
  · exact h

/-- **C08, unique names.** -/
theorem C08_names_unique [CharTables] (hist : List Schema) : (registerAll hist).names.Nodup := by
  suffices ∀ r : Registry, r.names.Nodup → (hist.foldl attempt r).names.Nodup from
    this [] (by simp [Registry.names])
  induction hist with
  | nil => exact fun r h => h
  | cons s t ih => exact fun r h => ih _ (names_attempt r s h)

theorem find?_of_nodup {r : Registry} (h : r.names.Nodup) {k : String} {s : Schema}
    (hm : (k, s) ∈ r) : r.find? k = some s := by
  induction r with
  | nil => cases hm
  | cons kt r ih =>
    obtain ⟨k', t⟩ := kt
    simp only [Registry.names, List.map_cons, List.nodup_cons] at h
    simp only [Registry.find?]
    rcases List.mem_cons.mp hm with he | hm
    · cases he; simp
    · rw [if_neg]
      · exact ih h.2 hm
      · rintro rfl
        exact h.1 (List.mem_map.mpr ⟨_, hm, rfl⟩)

/-- **C08, lookup.** Looking up a full name returns the definition accepted under it, and
nothing for a name that was never accepted. -/
theorem C08_lookup [CharTables] (hist : List Schema) (k : String) (s : Schema) :
    (registerAll hist).find? k = some s ↔ (k, s) ∈ firstAccepted [] hist := by
  rw [← C08_registry_is_first_accepted]
  exact ⟨Registry.mem_of_find?, find?_of_nodup (C08_names_unique hist)⟩

/-- **C08, rejection.** A rejected attempt is one that is not acceptable or whose name is taken,
and it leaves the registry unchanged; an accepted one is appended. -/
theorem C08_attempt [CharTables] (r : Registry) (s : Schema) :
    (∃ full, Acceptable s ∧ s.fullName? = some full ∧ full ∉ r.names ∧
      attempt r s = r ++ [(full, s)]) ∨
    ((¬ Acceptable s ∨ ∃ full, s.fullName? = some full ∧ full ∈ r.names) ∧
      (∃ e, r.register s = .error e) ∧ attempt r s = r) := by
  unfold attempt
  cases h : r.register s with
  | ok r' =>
    obtain ⟨ha, full, hf, hn, rfl⟩ := (register_ok_iff r s r').mp h
    exact .inl ⟨full, ha, hf, hn, rfl⟩
  | error e =>
    refine .inr ⟨?_, ⟨e, rfl⟩, rfl⟩
    by_cases ha : Acceptable s
    · right
      obtain ⟨n, ns, h1, h2⟩ := ha
      have hf : s.fullName? = some (makeFullName n ns) := by cases h1 <;> rfl
      refine ⟨_, hf, ?_⟩
      refine Classical.byContradiction fun hn => ?_
      rw [(register_ok_iff r s _).mpr ⟨⟨n, ns, h1, h2⟩, _, hf, hn, rfl⟩] at h
      cases h
    · exact .inl ha

/-- Every registry reached from the empty one holds named definitions under their own full
name (the hypothesis of `C13_check_terminates`). -/
theorem C08_registry_ok [CharTables] (hist : List Schema) : (registerAll hist).Ok := by
  suffices ∀ r : Registry, r.Ok → (hist.foldl attempt r).Ok from
    this [] (by intro kt h; cases h)
  induction hist with
  | nil => exact fun r h => h
  | cons s t ih =>
    intro r h
    refine ih _ ?_
    rcases C08_attempt r s with ⟨full, ha, hf, _, he⟩ | ⟨_, _, he⟩
    · rw [he]
      intro kt hkt
      rcases List.mem_append.mp hkt with hkt | hkt
      · exact h kt hkt
      · simp only [List.mem_cons, List.not_mem_nil, or_false] at hkt
        subst hkt
        refine ⟨?_, hf⟩
        obtain ⟨n, ns, h1, _⟩ := ha
        cases h1 <;> trivial
    · rw [he]; exact h

/-- Registering a bare reference is a panic of the code (`unreachable!`). -/
theorem C08_reference_panics [CharTables] (r : Registry) (n : String) (ns : Option String)
    (ps : Props) (sp : Option Span) : r.register (.ref n ns ps sp) = .error .panic := rfl

section
attribute [local instance] asciiTables
private def exEnum (n : String) (sy : List String) : Schema := .enum n (some "a.b") none sy none [] []

/-- Non-vacuity: of four attempts a duplicate and an illegal name are rejected. -/
example : registerAll [exEnum "E" ["X"], exEnum "E" ["Y"], exEnum "9" [], exEnum "F" []]
    = [("a.b.E", exEnum "E" ["X"]), ("a.b.F", exEnum "F" [])] := by rfl
end

/-! ## C09 -/

/-- **C09, registered names.** Every registered type has a legal simple name and a legal
namespace, and is entered under their composition. -/
theorem C09_registered_names_legal [CharTables] (hist : List Schema) (k : String) (s : Schema)
    (h : (k, s) ∈ registerAll hist) :
    ∃ n ns, DefinesType s n ns ∧ k = makeFullName n ns ∧ LegalName n ∧ LegalNamespace ns := by
  suffices ∀ (l : List Schema) (r : Registry),
      (∀ kt ∈ r, Acceptable kt.2 ∧ kt.2.fullName? = some kt.1) →
      ∀ kt ∈ l.foldl attempt r, Acceptable kt.2 ∧ kt.2.fullName? = some kt.1 by
    obtain ⟨⟨n, ns, h1, h4⟩, h3⟩ := this hist [] (by simp) (k, s) h
    have hf : s.fullName? = some (makeFullName n ns) := by cases h1 <;> rfl
    simp only [hf, Option.some.injEq] at h3
    exact ⟨n, ns, h1, h3.symm, h4⟩
  intro l
  induction l with
  | nil => exact fun r h => h
  | cons s t ih =>
    intro r h
    refine ih _ ?_
    rcases C08_attempt r s with ⟨full, ha, hf, _, he⟩ | ⟨_, _, he⟩
    · rw [he]
      intro kt hkt
      rcases List.mem_append.mp hkt with hkt | hkt
      · exact h kt hkt
      · simp only [List.mem_cons, List.not_mem_nil, or_false] at hkt
        subst hkt
        exact ⟨ha, hf⟩
    · rw [he]; exact h

/-- **C09, rejection.** A declaration with an illegal name or namespace is always rejected. -/
theorem C09_illegal_name_rejected [CharTables] (r : Registry) (n : String) (ns d : Option String)
    (fs : List Field) (e : Bool) (sy : List String) (df : Option String) (sz : Nat)
    (al : List String) (ps : Props) (h : ¬ (LegalName n ∧ LegalNamespace ns)) :
    r.register (.record n ns d fs e al ps) = .error (.invalidName n ns) ∧
    r.register (.enum n ns d sy df al ps) = .error (.invalidName n ns) ∧
    r.register (.fixed n ns d sz al ps) = .error (.invalidName n ns) := by
  rw [← validateSchemaName_iff] at h
  have : validateSchemaName n ns = false := by simpa using h
  simp [Registry.register, this]

section
attribute [local instance] asciiTables
example : ¬ LegalName "a-b" ∧ LegalName "_a9" ∧ LegalNamespace (some "x.y") ∧
    ¬ LegalNamespace (some "x..y") := by
  refine ⟨?_, ?_, ?_, ?_⟩
  · rw [← isValidAvroName_iff]; decide
  · rw [← isValidAvroName_iff]; decide
  · exact ((validateSchemaName_iff "a" (some "x.y")).mp (by decide)).2
  · intro h
    have h1 : LegalName "a" := by rw [← isValidAvroName_iff]; decide
    exact absurd ((validateSchemaName_iff "a" (some "x..y")).mpr ⟨h1, h⟩) (by decide)
end

/-! ## C10, registry part -/

/-- The reference check of the registry reports exactly the references to names that are not
registered, with their positions. -/
theorem C10_registry_reports_exactly (r : Registry) (x : String) (sp : Option Span) :
    (x, sp) ∈ r.validateReferences ↔
      (∃ kt ∈ r, RefersTo kt.2 x sp) ∧ x ∉ r.names := by
  unfold Registry.validateReferences Registry.schemas
  simp only [List.mem_flatMap, List.mem_map]
  have hk : r.contains x = false ↔ x ∉ r.names := by
    rw [← Registry.find?_isSome_iff]; simp [Registry.contains]
  constructor
  · rintro ⟨_, ⟨kt, hkt, rfl⟩, h⟩
    rw [mem_unresolvedRefs] at h
    exact ⟨⟨kt, hkt, h.1⟩, hk.mp h.2⟩
  · rintro ⟨⟨kt, hkt, h⟩, hn⟩
    exact ⟨kt.2, ⟨kt, hkt, rfl⟩, (mem_unresolvedRefs _ _ _ _).mpr ⟨h, hk.mpr hn⟩⟩

end Avdl.Props
