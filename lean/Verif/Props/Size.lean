import Verif.Lemmas.Size
import Verif.Props.ValidDoc
/-!
# C61: documents grow in proportion to the declarations, the check of defaults does not
-/

namespace Avdl.Props
open Spec

section
variable [CharTables] [FloatTables] [CaseTables]

/-- **C61, protocols.** The document of a compiled protocol is at most sixteen times as large as the
protocol with its types and messages. -/
theorem C61_protocol {b : Builder} {w : World} {fuel : Nat} {out : CompileOutput} {j : Json}
    {p : Protocol} (h : Converts b w fuel out j) (hp : out.file = .protocol p) :
    j.nodes ≤ 16 * p.nodes := by
  obtain ⟨⟨text0, name0, dir0, path0, b0, h⟩, hj⟩ := h.compiled
  unfold outputJson at hj
  rw [hp] at hj
  simp only at hj
  obtain ⟨ht, -, -⟩ := compile_protocol h hp
  have hty := compile_types h
  rw [← ht] at hty
  have := protocolToJson_size (fun t h => (hty t h).2) hj
  simp only [Protocol.nodes] at this ⊢
  omega

/-- **C61, schema files.** -/
theorem C61_schema {b : Builder} {w : World} {fuel : Nat} {out : CompileOutput} {j : Json}
    {s : Schema} (h : Converts b w fuel out j) (hs : out.file = .schema s) :
    j.nodes ≤ 8 * (s.nodes + Schema.nodesL out.registry.schemas) := by
  obtain ⟨⟨text0, name0, dir0, path0, b0, hcomp⟩, hj⟩ := h.compiled
  unfold outputJson at hj
  rw [hs] at hj
  simp only at hj
  have hty := compile_types hcomp
  cases hser : schemaToJson (buildLookup out.registry.schemas none) fuel s none [] with
  | none => rw [hser] at hj; cases hj
  | some r =>
    obtain ⟨j', K⟩ := r
    rw [hser] at hj
    simp only [Option.map_some, Option.some.injEq] at hj
    subst hj
    have a := (ser_size _ (lookupNamed_flat (fun t h => (hty t h).2) none) _ _ _ _ _ _ hser).1
    rw [leftOver_flat (fun t h => (hty t h).2)] at a
    omega

/-- **C61, extracted schemas.** Each document is in proportion to all types together. -/
theorem C61_extract {b : Builder} {w : World} {fuel : Nat} {out : CompileOutput}
    {docs : List (String × Json)} (h : Extracts b w fuel out docs) {d : String × Json}
    (hd : d ∈ docs) : d.2.nodes ≤ 16 * Schema.nodesL out.registry.schemas := by
  obtain ⟨⟨text0, name0, dir0, path0, b0, h⟩, he⟩ := h.compiled
  have hty := compile_types h
  obtain ⟨s, hs, K, hser⟩ := extracted_mem he hd
  have a := (ser_size _ (lookupNamed_flat (fun t h => (hty t h).2) none) _ _ _ _ _ _ hser).1
  rw [leftOver_flat (fun t h => (hty t h).2)] at a
  have := nodes_le_nodesL hs
  omega

end

/-! ## The check of default values -/

mutual
theorem depth_le_nodes : ∀ s : Schema, s.depth ≤ s.nodes + 1
  | .prim _ => by simp [Schema.depth, Schema.nodes]
  | .record _ _ _ fs _ _ _ => by
      have := depthF_le_nodes fs; simp only [Schema.depth, Schema.nodes]; omega
  | .enum .. => by simp [Schema.depth]
  | .fixed .. => by simp [Schema.depth]
  | .array i _ => by have := depth_le_nodes i; simp only [Schema.depth, Schema.nodes]; omega
  | .map i _ => by have := depth_le_nodes i; simp only [Schema.depth, Schema.nodes]; omega
  | .union ts _ => by have := depthL_le_nodes ts; simp only [Schema.depth, Schema.nodes]; omega
  | .annotated .. => by simp [Schema.depth]
  | .logical .. => by simp [Schema.depth]
  | .ref .. => by simp only [Schema.depth, Schema.nodes]; omega
theorem depthF_le_nodes : ∀ fs : List Field, Schema.depthF fs ≤ Schema.nodesF fs + 1
  | [] => by simp [Schema.depthF]
  | .mk _ s _ _ _ _ _ :: fs => by
      have := depth_le_nodes s; have := depthF_le_nodes fs
      simp only [Schema.depthF, Schema.nodesF]; omega
theorem depthL_le_nodes : ∀ ss : List Schema, Schema.depthL ss ≤ Schema.nodesL ss + 1
  | [] => by simp [Schema.depthL]
  | s :: ss => by
      have := depth_le_nodes s; have := depthL_le_nodes ss
      simp only [Schema.depthL, Schema.nodesL]; omega
end

theorem bound_le (r : Registry) (K : Known) :
    unknownCount r K * (lookupDepth r + 1) ≤ r.length * (Schema.nodesL r.schemas + 2) := by
  have h1 : unknownCount r K ≤ r.length := by
    unfold unknownCount
    exact Nat.le_trans (List.length_filter_le ..) (by simp)
  have h2 : lookupDepth r ≤ Schema.nodesL r.schemas + 1 := depthL_le_nodes (r.map Prod.snd)
  exact Nat.mul_le_mul h1 (by omega)

/-- **C61, nesting.** The calls of the check of default values are nested at most as deep as the
product of the number and the size of the types, also for recursive types. -/
theorem C61_check_depth (r : Registry) (hr : r.Ok) (s : Schema) (n : Nat)
    (hn : s.nodes + 1 + r.length * (Schema.nodesL r.schemas + 2) ≤ n) :
    validateRecordFieldDefaults r.find? n s ≠ none := by
  cases s with
  | record nm ns d fs e al ps =>
    refine go_total fun f hf => resolve_total r hr _ _ _ ?_
    refine Nat.le_trans (resolveBound_le r f.schema []) ?_
    have h1 := Schema.depth_le_depthF hf
    have h2 := depthF_le_nodes fs
    have h3 := bound_le r []
    simp only [Schema.nodes] at hn
    omega
  | _ => intro h; cases h

/-- A list, with a default for its optional rest. -/
def exChain : Schema :=
  .record "T" none none
    [.mk "next" (.union [.prim .null, .ref "T" none [] none] false) none (some .null) none [] []]
    false [] []

/-- Non-vacuity: for a recursive type fifteen nested calls are enough. -/
example : validateRecordFieldDefaults (Registry.find? [("T", exChain)]) 15 exChain ≠ none :=
  C61_check_depth [("T", exChain)] (by
    intro kt hkt
    simp only [List.mem_singleton] at hkt
    subst hkt
    exact ⟨by simp [exChain, Schema.IsNamed, Schema.name?], by decide⟩) _ _ (by decide)


/-- A legal name: underscores. -/
def towerName (n : Nat) : String := String.ofList (List.replicate (n + 1) '_')

/-- A field without anything else. -/
def towerField (name : String) (s : Schema) (d : Option Json) : Field := .mk name s none d none [] []

/-- The fields of the records of the tower: each has two of the type before it. -/
def towerFields : Nat → List Field
  | 0 => []
  | n + 1 => [towerField "l" (.ref (towerName n) none [] none) none,
      towerField "r" (.ref (towerName n) none [] none) none]

/-- `record T0 {}  record T1 { T0 l; T0 r; }  record T2 { T1 l; T1 r; }` and so on. -/
def tower (n : Nat) : Schema := .record (towerName n) none none (towerFields n) false [] []

/-- The type of a field that may be null. -/
def towerUse (n : Nat) : Schema := .union [.prim .null, .ref (towerName n) none [] none] true

/-- `record U { Tn? x = null; }`. -/
def towerTop (n : Nat) : Schema :=
  .record (towerName (n + 1)) none none [towerField "x" (towerUse n) (some .null)] false [] []

/-- The types in the order of declaration. -/
def towerTypes (n : Nat) : List Schema := (List.range (n + 1)).map tower ++ [towerTop n]

/-- The registry once they are declared. -/
def towerRegistry (n : Nat) : Registry := (List.range (n + 1)).map fun i => (towerName i, tower i)

theorem towerName_inj {i j : Nat} (h : towerName i = towerName j) : i = j := by
  have h := congrArg String.toList h
  simp only [towerName, String.toList_ofList] at h
  have := congrArg List.length h
  simpa using this

theorem find_map {f : Nat → Schema} (l : List Nat) {i : Nat} (h : i ∈ l) :
    Registry.find? (l.map fun i => (towerName i, f i)) (towerName i) = some (f i) := by
  induction l with
  | nil => cases h
  | cons j l ih =>
    simp only [List.map_cons, Registry.find?]
    split
    · rename_i he; rw [towerName_inj he]
    · rename_i he
      rcases List.mem_cons.mp h with rfl | h
      · exact absurd rfl he
      · exact ih h

theorem find_map_none {f : Nat → Schema} (l : List Nat) {i : Nat} (h : i ∉ l) :
    Registry.find? (l.map fun i => (towerName i, f i)) (towerName i) = none := by
  induction l with
  | nil => rfl
  | cons j l ih =>
    simp only [List.mem_cons, not_or] at h
    simp only [List.map_cons, Registry.find?]
    rw [if_neg fun he => h.1 (towerName_inj he).symm]
    exact ih h.2

theorem find_append_some {r r' : Registry} {x : String} {s : Schema} (h : r.find? x = some s) :
    Registry.find? (r ++ r') x = some s := by
  induction r with
  | nil => cases h
  | cons a r ih =>
    obtain ⟨k, v⟩ := a
    simp only [List.cons_append, Registry.find?] at h ⊢
    split
    · rw [if_pos ‹_›] at h; exact h
    · rw [if_neg ‹_›] at h; exact ih h

/-- What the check makes of the `n`th type of the tower. -/
theorem tower_resolved {res : String → Option Schema} : ∀ (n : Nat),
    (∀ i, i ≤ n → res (towerName i) = some (tower i)) → ∀ (V : List String),
    (∀ i, i ≤ n → towerName i ∉ V) → ∀ fuel, 2 * n + 2 ≤ fuel →
    ∃ r, resolveInner res fuel (.ref (towerName n) none [] none) V = .done r ∧ 2 ^ n ≤ r.nodes
  | 0, h, V, hV, fuel, hf => by
      obtain ⟨f, rfl⟩ : ∃ f, fuel = f + 2 := ⟨fuel - 2, by omega⟩
      refine ⟨tower 0, ?_, by simp [tower, Schema.nodes]; omega⟩
      have e : makeFullName (towerName 0) none = towerName 0 := rfl
      simp only [resolveInner, e, List.contains_eq_mem, hV 0 (by omega), h 0 (by omega)]
      rfl
  | n + 1, h, V, hV, fuel, hf => by
      obtain ⟨f, rfl⟩ : ∃ f, fuel = f + 2 := ⟨fuel - 2, by omega⟩
      have e : makeFullName (towerName (n + 1)) none = towerName (n + 1) := rfl
      obtain ⟨r, h1, h2⟩ := tower_resolved n (fun i hi => h i (by omega)) (towerName (n + 1) :: V)
        (fun i hi hm => by
          rcases List.mem_cons.mp hm with he | hm
          · have := towerName_inj he; omega
          · exact hV i (by omega) hm) f (by omega)
      refine ⟨.record (towerName (n + 1)) none none [towerField "l" r none, towerField "r" r none]
        false [] [], ?_, ?_⟩
      · simp only [resolveInner, e, List.contains_eq_mem, hV (n + 1) (by omega), h (n + 1) (by omega),
          tower, towerFields, resolveLoop, towerField, Field.schema, h1, resolveField]
        rfl
      · simp only [Schema.nodes, Schema.nodesF, towerField]
        rw [Nat.pow_succ]
        omega

section
variable [CharTables] [FloatTables] [CaseTables]

theorem processItems_append {w : World} {dirs : List Path} {fuel : Nat}
    {nested : List DeclItem → Path → Ctx → Outcome Unit} {dir : Path} (l l' : List DeclItem) {c c' : Ctx}
    (h : processItems w dirs fuel nested l dir c = (.ok (), c')) :
    processItems w dirs fuel nested (l ++ l') dir c = processItems w dirs fuel nested l' dir c' := by
  induction l generalizing c with
  | nil =>
    simp only [processItems, Prod.mk.injEq, true_and] at h
    subst h
    rfl
  | cons a l ih =>
    cases a with
    | import_ i =>
      simp only [List.cons_append, processItems] at h ⊢
      generalize resolveSingleImport w dirs nested i dir c = o at h ⊢
      rcases o with ⟨_ | u, c1⟩
      · cases h
      · exact ih h
    | type s sp sps =>
      simp only [List.cons_append, processItems] at h ⊢
      generalize declareType fuel s sp sps c = o at h ⊢
      rcases o with ⟨_ | u, c1⟩
      · cases h
      · exact ih h

/-- The declaration of a type, without positions. -/
def towerItem (s : Schema) : DeclItem := .type s none []

omit [FloatTables] [CaseTables] in
theorem towerName_valid (n : Nat) : validateSchemaName (towerName n) none = true := by
  rw [validateSchemaName_iff]
  refine ⟨⟨'_', List.replicate n '_', ?_, .inr rfl, fun d hd => .inr (List.eq_of_mem_replicate hd)⟩,
    .inl rfl⟩
  simp [towerName, List.replicate_succ]

omit [FloatTables] [CaseTables] in
theorem tower_register (k : Nat) (fs : List Field) :
    Registry.register ((List.range k).map fun i => (towerName i, tower i))
      (.record (towerName k) none none fs false [] []) =
    .ok (((List.range k).map fun i => (towerName i, tower i)) ++
      [(towerName k, .record (towerName k) none none fs false [] [])]) := by
  have e : makeFullName (towerName k) none = towerName k := rfl
  have h := find_map_none (f := tower) (List.range k) (i := k) (by simp)
  simp only [Registry.register, towerName_valid, e, Registry.contains, h]
  rfl

omit [FloatTables] [CaseTables] in
theorem declare_tower (fuel k : Nat) (c : Ctx)
    (hc : c.registry = (List.range k).map fun i => (towerName i, tower i)) :
    declareType fuel (tower k) none [] c =
      (.ok (), { c with registry := (List.range (k + 1)).map fun i => (towerName i, tower i) }) := by
  have e := tower_register k (towerFields k)
  unfold declareType
  rw [hc]
  rw [show tower k = .record (towerName k) none none (towerFields k) false [] [] from rfl, e]
  have h2 : ∀ res, validateRecordFieldDefaults res fuel
      (.record (towerName k) none none (towerFields k) false [] []) = some [] := by
    intro res
    cases k <;> rfl
  simp only [h2, List.range_succ, List.map_append, List.map_cons, List.map_nil, tower]

theorem declare_towers (w : World) (dirs : List Path) (fuel : Nat)
    (nested : List DeclItem → Path → Ctx → Outcome Unit) (dir : Path) (k : Nat) :
    processItems w dirs fuel nested (((List.range k).map tower).map towerItem) dir Ctx.new =
      (.ok (), { Ctx.new with registry := (List.range k).map fun i => (towerName i, tower i) }) := by
  induction k with
  | zero => rfl
  | succ k ih =>
    rw [List.range_succ, List.map_append, List.map_append, processItems_append _ _ ih]
    simp only [List.map_cons, List.map_nil, towerItem, processItems]
    rw [declare_tower fuel k _ rfl]
    simp only [List.range_succ, List.map_append, List.map_cons, List.map_nil]

omit [CharTables] [FloatTables] [CaseTables] in
/-- The registry of the whole tower, without the last type. -/
theorem towers_find {n : Nat} (r : Registry) : ∀ i, i ≤ n →
    Registry.find? (((List.range (n + 1)).map fun i => (towerName i, tower i)) ++ r) (towerName i) =
      some (tower i) :=
  fun i hi => find_append_some (find_map _ (List.mem_range.mpr (by omega)))

/-- **C61 fails for the check of default values.** For each `n` there are `n + 2` types, of at most
six nodes each, that are accepted when they are declared in this order (nothing else is needed: no
imports and no messages).  The only default is `null` for an optional field; to check it, a schema of
`2 ^ n` nodes is built. -/
theorem C61_fails_check (w : World) (dirs : List Path) (dir : Path)
    (nested : List DeclItem → Path → Ctx → Outcome Unit) (n fuel : Nat) (hf : 2 * n + 4 ≤ fuel) :
    (towerTypes n).length = n + 2 ∧ (∀ t ∈ towerTypes n, t.nodes ≤ 6) ∧
    ∃ c, processItems w dirs fuel nested ((towerTypes n).map towerItem) dir Ctx.new = (.ok (), c) ∧
      c.registry.schemas = towerTypes n ∧
      ∃ r, resolveInner c.registry.find? fuel (towerUse n) [] = .done r ∧ 2 ^ n ≤ r.nodes := by
  refine ⟨by simp [towerTypes], ?_, ?_⟩
  · intro t ht
    simp only [towerTypes, List.mem_append, List.mem_map, List.mem_singleton] at ht
    rcases ht with ⟨i, -, rfl⟩ | rfl
    · cases i <;> simp [tower, towerFields, Schema.nodes, Schema.nodesF, towerField, Json.nodesM]
    · simp [towerTop, towerUse, Schema.nodes, Schema.nodesF, Schema.nodesL, towerField, Json.nodesM,
        Json.nodes]
  · obtain ⟨r, h1, h2⟩ := tower_resolved (res := Registry.find?
        (((List.range (n + 1)).map fun i => (towerName i, tower i)) ++ [(towerName (n + 1), towerTop n)]))
      n (towers_find _) [] (by simp) (fuel - 1) (by omega)
    obtain ⟨f, rfl⟩ : ∃ f, fuel = f + 2 := ⟨fuel - 2, by omega⟩
    have h3 : resolveInner (Registry.find?
        (((List.range (n + 1)).map fun i => (towerName i, tower i)) ++
          [(towerName (n + 1), towerTop n)])) (f + 2) (towerUse n) [] = .done (.union [.prim .null, r] true) := by
      rw [show f + 2 - 1 = f + 1 from rfl] at h1
      simp only [towerUse]
      rw [resolveInner]
      simp only [resolveLoop, h1]
      simp only [resolveInner]
    refine ⟨{ Ctx.new with registry := ((List.range (n + 1)).map fun i => (towerName i, tower i)) ++
      [(towerName (n + 1), towerTop n)] }, ?_, ?_, _, h3, ?_⟩
    · unfold towerTypes
      rw [List.map_append, processItems_append _ _ (declare_towers w dirs (f + 2) nested dir (n + 1))]
      simp only [List.map_cons, List.map_nil, towerItem, processItems, declareType]
      have e := tower_register (n + 1) [towerField "x" (towerUse n) (some .null)]
      rw [show towerTop n = .record (towerName (n + 1)) none none
        [towerField "x" (towerUse n) (some .null)] false [] [] from rfl] at h3 ⊢
      rw [e]
      have e2 : validateRecordFieldDefaults (Registry.find?
        (((List.range (n + 1)).map fun i => (towerName i, tower i)) ++
          [(towerName (n + 1), .record (towerName (n + 1)) none none
            [towerField "x" (towerUse n) (some .null)] false [] [])])) (f + 2)
          (.record (towerName (n + 1)) none none
            [towerField "x" (towerUse n) (some .null)] false [] []) = some [] := by
        simp only [validateRecordFieldDefaults, validateRecordFieldDefaults.go, towerField,
          Field.default, Field.schema] at h3 ⊢
        rw [h3]
        rfl
      simp only [e2]
    · simp only [Registry.schemas, towerTypes, List.map_append, List.map_map, List.map_cons, List.map_nil]
      rfl
    · simp only [Schema.nodes, Schema.nodesL]
      omega

end

/-! ## Examples -/

section
attribute [local instance] asciiTables exFloats exCases exJsonFloats

/-- The tower with three stories, as source text. -/
def exTower (p : Path) : Option String :=
  if p = "a" then some
    "protocol P{record _{}record __{_ l;_ r;}record ___{__ l;__ r;}record ____{___?x=null;}}"
  else none

/-- What the check builds for the fields with a default. -/
def builtFor (r : Registry) (fuel : Nat) : List Nat :=
  r.schemas.flatMap fun s => match s with
    | .record _ _ _ fs _ _ _ => fs.filterMap fun f => f.default.bind fun _ =>
        match resolveInner r.find? fuel f.schema [] with
        | .done t => some t.nodes
        | _ => none
    | _ => []

theorem exTower_checks : ((Builder.new.compileFile (exReimportWorld exTower) 9 "a").1.toBool &&
    (Builder.new.convert (exReimportWorld exTower) 9 "a").1.toBool &&
    decide (builtFor (exCompiled exTower).registry 9 = [15]) &&
    (match (exCompiled exTower).file with
      | .protocol p => decide (p.types.map Schema.nodes = [1, 5, 5, 6])
      | _ => false)) = true := by decide +kernel

attribute [local irreducible] exCompiled exWritten Builder.compileFile Builder.convert Builder.compile

/-- Non-vacuity: the source is compiled and written, and the theorem applies to it.  What is built
for the default of the last type is nearly as large as all the types together. -/
example : ∃ out j p, Converts Builder.new (exReimportWorld exTower) 9 out j ∧
    out.file = .protocol p ∧ p.types.length = 4 ∧ j.nodes ≤ 16 * p.nodes ∧
    builtFor out.registry 9 = [15] := by
  have hk := exTower_checks
  simp only [Bool.and_eq_true, decide_eq_true_eq] at hk
  obtain ⟨⟨⟨k1, k2⟩, k4⟩, k3⟩ := hk
  have hconv : Converts Builder.new (exReimportWorld exTower) 9
      (exCompiled exTower) (exWritten exTower) := by
    unfold exCompiled exWritten
    exact converts_of_ok k1 k2
  generalize exCompiled exTower = out at *
  generalize exWritten exTower = j at *
  cases hp : out.file with
  | named ss => rw [hp] at k3; cases k3
  | schema s => rw [hp] at k3; cases k3
  | protocol p =>
    rw [hp] at k3
    simp only [decide_eq_true_eq] at k3
    have hl := congrArg List.length k3
    rw [List.length_map] at hl
    exact ⟨out, j, p, hconv, hp, hl, C61_protocol hconv hp, k4⟩

end

end Avdl.Props
