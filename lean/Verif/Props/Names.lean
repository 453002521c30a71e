import Verif.Lemmas.SerEvents
/-!
# C01, C02: names

Specification used: `Spec.qualify`, `Spec.resolveName`, `Spec.primitives` (`Spec/OnePass.lean`).
-/

namespace Avdl.Props

open Avdl Avdl.Spec

/-- C01: splitting a composed full name gives back its parts; an empty or absent namespace gives
the bare name, which splits to itself without namespace. -/
theorem C01_split_compose (name ns : String) (h : '.' ∉ name.toList) :
    splitFullName (makeFullName name (some ns)) = (name, if ns = "" then none else some ns) ∧
    splitFullName (makeFullName name none) = (name, none) := by
  constructor
  · by_cases hns : ns = ""
    · subst hns
      rw [makeFullName_empty, splitFullName_dotfree h, if_pos rfl]
    · rw [splitFullName_make h hns, if_neg hns]
  · exact splitFullName_dotfree h

example : splitFullName (makeFullName "Point" (some "org.geo")) = ("Point", some "org.geo") :=
  (C01_split_compose "Point" "org.geo" (by decide)).1

/-- C01: the full name identifies a type: dot-free names with equal full names agree in name and
effective namespace. -/
theorem C01_full_name_identifies (n n' : String) (ns ns' : Option String)
    (hn : '.' ∉ n.toList) (hn' : '.' ∉ n'.toList) :
    makeFullName n ns = makeFullName n' ns' ↔ n = n' ∧ ns.getD "" = ns'.getD "" := by
  constructor
  · exact makeFullName_inj hn hn'
  · rintro ⟨rfl, h⟩
    rw [makeFullName_nsStr n ns, makeFullName_nsStr n ns']
    exact congrArg (fun x => makeFullName n (some x)) h

example : makeFullName "c" (some "a.b") ≠ makeFullName "b" (some "a") := by
  rw [Ne, C01_full_name_identifies _ _ _ _ (by decide) (by decide)]; decide

/-- C01: composing inverts splitting, for every text whose part before the last dot is
non-empty (`".X"` is the only kind of exception). -/
theorem C01_compose_split (full : String) (h : (splitFullName full).2 ≠ some "") :
    makeFullName (splitFullName full).1 (splitFullName full).2 = full := by
  unfold splitFullName at *
  cases hs : rsplitDot full.toList with
  | none => rfl
  | some ab =>
    obtain ⟨a, b⟩ := ab
    rw [hs] at h
    simp only at h ⊢
    have hne : String.ofList a ≠ "" := fun h' => h (by rw [h'])
    apply String.toList_inj.mp
    rw [makeFullName_toList hne, (rsplitDot_some hs).1]
    simp

example : (splitFullName "a.b.C").2 ≠ some "" := by decide

/-- The exception is real: `".X"` splits to name `X` and an empty namespace, and composes to
`"X"`. -/
theorem C01_compose_split_exception :
    makeFullName (splitFullName ".X").1 (splitFullName ".X").2 ≠ ".X" := by decide

/-- A reference text `ref` in enclosing namespace `encl` denotes the named type `full`: it is not
the name of a primitive and resolves to `full`. -/
def Denotes (encl ref full : String) : Prop := ref ∉ primitives ∧ resolveName encl ref = full

/-- C02 (partial): a reference written by the compiler denotes the type it refers to, **exactly**
when a type in the null namespace is neither called like a primitive nor referenced from inside
a namespace.  Missing for the full property: the excluded references, which really are
misresolved (this is an equivalence). -/
theorem C02_reference_denotes_partial (name : String) (ns encl : Option String)
    (hn : '.' ∉ name.toList) :
    Denotes (encl.getD "") (schemaRefName name ns encl) (qualify (ns.getD "") name) ↔
      (ns.getD "" = "" → name ∉ primitives ∧ encl.getD "" = "") := by
  constructor
  · rintro ⟨hp, hr⟩ hns
    have hfull : makeFullName name ns = name := by
      rw [makeFullName_nsStr]; unfold nsStr; rw [hns, makeFullName_empty]
    have href : schemaRefName name ns encl = name := by
      unfold schemaRefName; split
      · split
        · exact hfull
        · rfl
      · exact hfull
    rw [href] at hp hr
    refine ⟨hp, ?_⟩
    rw [hns] at hr
    simp only [resolveName, hn, if_false, qualify, if_true] at hr
    split at hr
    · assumption
    · exfalso
      have := congrArg (fun s : String => s.toList.length) hr
      simp only [String.toList_append, List.length_append, dot_toList] at this
      simp at this
  · intro h
    have hok : RefOk (nsStr encl) name ns := ⟨hn, fun h' => (h h').1, fun h' => (h h').2⟩
    have he := events_ref hok
    unfold events at he
    split at he
    · cases he
    · rename_i hnp
      refine ⟨hnp, ?_⟩
      simp only [List.cons.injEq, Ev.use.injEq, and_true] at he
      rw [← qualify_eq_makeFullName] at he
      exact he

/-- Non-vacuity: same namespace, other namespace, namespaced type with a primitive's name. -/
example : Denotes "p" (schemaRefName "int" (some "p") (some "p")) "p.int" ∧
    Denotes "q" (schemaRefName "A" (some "p") (some "q")) "p.A" ∧
    schemaRefName "A" (some "p") (some "p") = "A" := by
  refine ⟨?_, ?_, by decide⟩
  · exact (C02_reference_denotes_partial "int" (some "p") (some "p") (by decide)).mpr (by decide)
  · exact (C02_reference_denotes_partial "A" (some "p") (some "q") (by decide)).mpr (by decide)

/-- C02 fails: a type without namespace referenced inside namespace `p` is written `X`, which a
reader takes for `p.X`. -/
theorem C02_fails_null_namespace :
    ¬ Denotes "p" (schemaRefName "X" none (some "p")) "X" := by
  unfold Denotes; decide

/-- C02 fails: a namespace-less type called like a primitive. -/
theorem C02_fails_primitive_name : ¬ Denotes "" (schemaRefName "int" none none) "int" := by
  unfold Denotes; decide

/-- The words for types in JSON schemas, as listed by the Avro specification. -/
def typeWordList : List String :=
  ["null", "boolean", "int", "long", "float", "double", "bytes", "string",
    "record", "enum", "array", "map", "union", "fixed"]

/-- C02, form: a reference is written by the simple name exactly in the namespace of its type and
if the name is none of the words for types; else in full. -/
theorem C02_written_form (name : String) (ns encl : Option String) :
    (ns = encl → name ∉ typeWordList → schemaRefName name ns encl = name) ∧
    (ns ≠ encl ∨ name ∈ typeWordList → schemaRefName name ns encl = qualify (ns.getD "") name) := by
  have hw : isSchemaTypeName name = true ↔ name ∈ typeWordList := by
    rw [isSchemaTypeName, Bool.or_eq_true, List.contains_iff_mem, List.contains_iff_mem,
      ← List.mem_append]
    exact Iff.rfl
  have hq : makeFullName name ns = qualify (ns.getD "") name := by
    cases ns with
    | none => rfl
    | some n => rfl
  constructor
  · intro h1 h2
    rw [schemaRefName, if_pos h1, if_neg (fun h => h2 (hw.mp h))]
  · intro h
    rw [schemaRefName]
    split
    · next he => rw [if_pos (hw.mpr (h.resolve_left (· he))), hq]
    · exact hq

example : schemaRefName "fixed" (some "p") (some "p") = "p.fixed" ∧
    schemaRefName "Fixed" (some "p") (some "p") = "Fixed" := by decide

/-- C02 for aliases: the alias text written in the output resolves, in the namespace of the type,
to what the declared alias resolves to (excluded: texts of the form `.X`). -/
theorem C02_alias_denotes (alias : String) (ns : Option String)
    (h : (splitFullName alias).2 ≠ some "") :
    resolveName (ns.getD "") (aliasRefName alias ns) = resolveName (ns.getD "") alias := by
  have hd := splitFullName_fst_dotfree alias
  have hc := C01_compose_split alias h
  unfold aliasRefName
  cases hs : splitFullName alias with
  | mk simple o =>
    rw [hs] at h hd hc
    cases o with
    | none =>
      simp only at hc ⊢
      rw [← hc]; rfl
    | some a =>
      simp only at hc ⊢
      have ha : a ≠ "" := fun h' => h (by rw [h'])
      have := ((C02_reference_denotes_partial simple (some a) ns hd).mpr
        (fun h' => absurd h' ha)).2
      rw [this, ← hc]
      have h2 := resolve_full (e := ns.getD "") (n := simple) ha
      rw [h2, ← qualify_eq_makeFullName]
      rfl

example : aliasRefName "p.Old" (some "p") = "Old" ∧ aliasRefName "q.Old" (some "p") = "q.Old" := by
  decide

end Avdl.Props
