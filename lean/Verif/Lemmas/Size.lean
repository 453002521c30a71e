import Verif.Spec.Size
import Verif.Lemmas.Flat
import Verif.Lemmas.SerFuel
/-!
# Lemmas about the size of documents
-/

namespace Avdl

theorem nodes_pos (j : Json) : 1 ≤ j.nodes := by
  cases j <;> simp only [Json.nodes] <;> omega

theorem schema_nodes_pos (s : Schema) : 1 ≤ s.nodes := by
  cases s <;> simp only [Schema.nodes] <;> omega

theorem nodesM_insert (k : String) (v : Json) : ∀ m : JMap,
    Json.nodesM (JMap.insert k v m) ≤ Json.nodesM m + v.nodes
  | [] => by simp [JMap.insert, Json.nodesM]
  | (k', v') :: t => by
      have := nodesM_insert k v t
      simp only [JMap.insert]
      split
      · simp only [Json.nodesM]; omega
      · split <;> simp only [Json.nodesM] <;> omega

theorem nodesM_insertAll (ps : List (String × Json)) : ∀ m : JMap,
    Json.nodesM (m.insertAll ps) ≤ Json.nodesM m + Json.nodesM ps := by
  induction ps with
  | nil => intro m; simp [JMap.insertAll, Json.nodesM]
  | cons kv t ih =>
    intro m
    have h1 := ih (JMap.insert kv.1 kv.2 m)
    have h2 := nodesM_insert kv.1 kv.2 m
    simp only [JMap.insertAll, List.foldl_cons, Json.nodesM] at h1 ⊢
    omega

theorem nodesL_strs {α : Type} (f : α → String) (l : List α) :
    Json.nodesL (l.map fun a => .str (f a)) = l.length := by
  induction l with
  | nil => rfl
  | cons a l ih => simp only [List.map_cons, Json.nodesL, Json.nodes, ih, List.length_cons]; omega

theorem nodesL_filter (f : Json → Bool) (l : List Json) : Json.nodesL (l.filter f) ≤ Json.nodesL l := by
  induction l with
  | nil => simp
  | cons a l ih =>
    simp only [List.filter_cons]
    split <;> simp only [Json.nodesL] <;> omega

theorem nodesL_append (l l' : List Schema) :
    Schema.nodesL (l ++ l') = Schema.nodesL l + Schema.nodesL l' := by
  induction l with
  | nil => simp [Schema.nodesL]
  | cons a l ih => simp only [List.cons_append, Schema.nodesL, ih]; omega

theorem nodesL_reverse (l : List Schema) : Schema.nodesL l.reverse = Schema.nodesL l := by
  induction l with
  | nil => rfl
  | cons a l ih => simp only [List.reverse_cons, nodesL_append, Schema.nodesL, ih]; omega

/-- What is left to be written: the definitions whose names are not known. -/
def leftOver (lk : Lookup) (K : Known) : Nat :=
  Schema.nodesL ((lk.map Prod.snd).filter fun t => !K.contains (t.fullName?.getD ""))

theorem nodesL_filter_mono {f g : Schema → Bool} (l : List Schema) (h : ∀ t, f t = true → g t = true) :
    Schema.nodesL (l.filter f) ≤ Schema.nodesL (l.filter g) := by
  induction l with
  | nil => simp
  | cons a l ih =>
    have := h a
    simp only [List.filter_cons]
    split
    · rw [if_pos (h a ‹_›)]; simp only [Schema.nodesL]; omega
    · split
      · simp only [Schema.nodesL]; omega
      · exact ih

theorem leftOver_cons (lk : Lookup) (x : String) (K : Known) : leftOver lk (x :: K) ≤ leftOver lk K := by
  apply nodesL_filter_mono
  intro t
  simp only [List.contains_cons, Bool.not_or, Bool.and_eq_true]
  exact And.right

theorem leftOver_write {lk : Lookup} {t : Schema} (ht : t ∈ lk.map Prod.snd) {x : String}
    (hx : t.fullName? = some x) {K : Known} (hK : K.contains x = false) :
    t.nodes + leftOver lk (x :: K) ≤ leftOver lk K := by
  unfold leftOver
  generalize lk.map Prod.snd = l0 at ht ⊢
  induction l0 with
  | nil => cases ht
  | cons a l ih =>
    rcases List.mem_cons.mp ht with rfl | ht
    · have hm := nodesL_filter_mono (f := fun t => !(x :: K).contains (t.fullName?.getD ""))
        (g := fun t => !K.contains (t.fullName?.getD "")) l (by
          intro t
          simp only [List.contains_cons, Bool.not_or, Bool.and_eq_true]
          exact And.right)
      rw [List.filter_cons, List.filter_cons, if_neg (by simp [hx]), if_pos (by simpa [hx] using hK)]
      simp only [Schema.nodesL]
      omega
    · have ih := ih ht
      have hs : ∀ t : Schema, (!(x :: K).contains (t.fullName?.getD "")) = true →
          (!K.contains (t.fullName?.getD "")) = true := by
        intro t
        simp only [List.contains_cons, Bool.not_or, Bool.and_eq_true]
        exact And.right
      rw [List.filter_cons, List.filter_cons]
      split
      · rw [if_pos (hs a ‹_›)]; simp only [Schema.nodesL]; omega
      · split
        · simp only [Schema.nodesL]; omega
        · exact ih

theorem mem_of_get? {lk : Lookup} {x : String} {t : Schema} (h : lk.get? x = some t) :
    t ∈ lk.map Prod.snd := by
  induction lk with
  | nil => cases h
  | cons kt l ih =>
    obtain ⟨k, t'⟩ := kt
    simp only [Lookup.get?] at h
    split at h
    · injection h with h; subst h; simp
    · exact List.mem_cons_of_mem _ (ih h)

theorem mapAccum_size {α : Type} {lk : Lookup} {f : α → Known → Option (Json × Known)}
    {size : α → Nat}
    (h : ∀ a K j K', f a K = some (j, K') → j.nodes + 8 * leftOver lk K' ≤ 8 * size a + 8 * leftOver lk K) :
    ∀ (l : List α) (K : Known) (js : List Json) (K' : Known), mapAccum f l K = some (js, K') →
    Json.nodesL js + 8 * leftOver lk K' ≤ 8 * (l.map size).sum + 8 * leftOver lk K
  | [], K, js, K', hm => by
      simp only [mapAccum, Option.some.injEq, Prod.mk.injEq] at hm
      obtain ⟨rfl, rfl⟩ := hm
      simp [Json.nodesL]
  | a :: l, K, js, K', hm => by
      simp only [mapAccum] at hm
      cases ha : f a K with
      | none => simp [ha] at hm
      | some r =>
        obtain ⟨j, K1⟩ := r
        simp only [ha] at hm
        cases hl : mapAccum f l K1 with
        | none => simp [hl] at hm
        | some r =>
          obtain ⟨js', K2⟩ := r
          simp only [hl, Option.some.injEq, Prod.mk.injEq] at hm
          obtain ⟨rfl, rfl⟩ := hm
          have h1 := h a K j K1 ha
          have h2 := mapAccum_size h l K1 js' K2 hl
          simp only [Json.nodesL, List.map_cons, List.sum_cons]
          omega

/-- An entry that may be absent. -/
def addOpt (key : String) (v : Option Json) (m : JMap) : JMap :=
  match v with
  | some v => JMap.insert key v m
  | none => m

theorem addOpt_size (key : String) (v : Option Json) (m : JMap) :
    Json.nodesM (addOpt key v m) ≤ Json.nodesM m + ((v.map Json.nodes).getD 0) := by
  cases v with
  | none => simp [addOpt]
  | some v => exact nodesM_insert key v m

theorem str_size {α : Type} (o : Option α) (f : α → String) :
    (((o.map fun a => Json.str (f a)).map Json.nodes).getD 0) ≤ 1 := by
  cases o <;> simp [Json.nodes]

theorem nsEntry_eq (ns encl : Option String) (m : JMap) : (match ns with
      | some n =>
          if ns ≠ encl ∧ ¬ (n = "" ∧ encl = none) then JMap.insert "namespace" (.str n) m
          else m
      | none => m) = addOpt "namespace" (ns.bind fun n =>
        if ns ≠ encl ∧ ¬ (n = "" ∧ encl = none) then some (.str n) else none) m := by
  cases ns with
  | none => rfl
  | some n => simp only [Option.bind_some]; split <;> rfl

theorem preamble_size {ty nm : String} {ns doc : Option String} {K K' : Known} {encl : Option String}
    {obj : JMap} (h : namedTypePreamble ty nm ns doc K encl = .ok (obj, K')) :
    Json.nodesM obj ≤ 4 ∧ K' = makeFullName nm ns :: K ∧ K.contains (makeFullName nm ns) = false := by
  unfold namedTypePreamble at h
  simp only at h
  split at h
  · cases h
  · rename_i hk
    injection h with h
    injection h with h1 h2
    refine ⟨?_, h2.symm, by simpa using hk⟩
    subst h1
    have e : Json.nodesM (JMap.insert "name" (.str nm) (JMap.insert "type" (.str ty) [])) ≤ 2 := by
      have a := nodesM_insert "name" (.str nm) (JMap.insert "type" (.str ty) [])
      have b := nodesM_insert "type" (.str ty) []
      simp only [Json.nodes, Json.nodesM] at a b
      omega
    generalize JMap.insert "name" (.str nm) (JMap.insert "type" (.str ty) []) = m at e ⊢
    have e2 : Json.nodesM (addOpt "namespace" (ns.bind fun n =>
        if ns ≠ encl ∧ ¬ (n = "" ∧ encl = none) then some (.str n) else none) m) ≤ 3 := by
      have a := addOpt_size "namespace" (ns.bind fun n =>
        if ns ≠ encl ∧ ¬ (n = "" ∧ encl = none) then some (.str n) else none) m
      have b : (((ns.bind fun n => if ns ≠ encl ∧ ¬ (n = "" ∧ encl = none) then some (Json.str n)
          else none).map Json.nodes).getD 0) ≤ 1 := by
        cases ns with
        | none => simp
        | some n => simp only [Option.bind_some]; split <;> simp [Json.nodes]
      omega
    have e3 := nsEntry_eq ns encl m
    have e4 : ∀ m2 : JMap, (match doc with
        | some d => JMap.insert "doc" (.str d) m2
        | none => m2) = addOpt "doc" (doc.map fun d => .str d) m2 := by
      intro m2; cases doc <;> rfl
    have a := addOpt_size "doc" (doc.map fun d => .str d) (addOpt "namespace" (ns.bind fun n =>
        if ns ≠ encl ∧ ¬ (n = "" ∧ encl = none) then some (.str n) else none) m)
    have b := str_size doc fun d => d
    refine Nat.le_trans (Nat.le_of_eq (congrArg Json.nodesM ((e4 _).trans (congrArg _ e3)))) ?_
    omega

theorem finish_size (obj : JMap) (ps : Props) (al : List String) (ns : Option String) :
    Json.nodesM (finishNamedType obj ps al ns) ≤ Json.nodesM obj + Json.nodesM ps + 1 + al.length := by
  unfold finishNamedType
  have h := nodesM_insertAll ps obj
  simp only
  split
  · omega
  · have a := nodesM_insert "aliases" (.arr (al.map fun a => .str (aliasRefName a ns))) (obj.insertAll ps)
    rw [Json.nodes, nodesL_strs] at a
    omega

theorem fieldObj_size (f : Field) (j : Json) :
    (Json.obj (fieldObj f j)).nodes + 1 ≤
      8 + j.nodes + ((f.default.map Json.nodes).getD 0) + f.aliases.length + Json.nodesM f.props := by
  unfold fieldObj
  simp only [Json.nodes]
  have a := nodesM_insert "name" (.str f.name) []
  have b := nodesM_insert "type" j (JMap.insert "name" (.str f.name) [])
  simp only [Json.nodes, Json.nodesM] at a b
  generalize JMap.insert "type" j (JMap.insert "name" (.str f.name) []) = m at b ⊢
  have h4 : ∀ m3 : JMap, Json.nodesM (if f.aliases = [] then m3
      else JMap.insert "aliases" (.arr (f.aliases.map .str)) m3) ≤
      Json.nodesM m3 + 1 + f.aliases.length := by
    intro m3
    split
    · omega
    · have a := nodesM_insert "aliases" (.arr (f.aliases.map .str)) m3
      rw [Json.nodes, nodesL_strs (fun s => s)] at a
      omega
  have h3 : ∀ m2 : JMap, Json.nodesM (orderEntry f.order m2) ≤ Json.nodesM m2 + 1 := by
    intro m2
    unfold orderEntry
    split
    · exact nodesM_insert "order" (.str "descending") m2
    · exact nodesM_insert "order" (.str "ignore") m2
    · omega
    · omega
  have a1 := addOpt_size "doc" (f.doc.map fun d => .str d) m
  have b1 := str_size f.doc fun d => d
  generalize hm1 : addOpt "doc" (f.doc.map fun d => .str d) m = m1 at a1
  have a2 := addOpt_size "default" f.default m1
  generalize hm2 : addOpt "default" f.default m1 = m2 at a2
  have a3 := h3 m2
  have a4 := h4 (orderEntry f.order m2)
  have a5 := nodesM_insertAll f.props (if f.aliases = [] then orderEntry f.order m2
      else JMap.insert "aliases" (.arr (f.aliases.map .str)) (orderEntry f.order m2))
  refine Nat.le_trans (Nat.add_le_add_right (Nat.add_le_add_left (Nat.le_trans (Nat.le_of_eq ?_) a5) 1) 1) ?_
  · subst hm2 hm1
    obtain ⟨n, s, d, df, o, al, ps⟩ := f
    cases d <;> cases df <;> rfl
  · omega

/-- The size of one field. -/
def Field.nodes (f : Field) : Nat :=
  1 + f.schema.nodes + ((f.default.map Json.nodes).getD 0) + f.aliases.length + Json.nodesM f.props

theorem nodesF_sum (fs : List Field) : Schema.nodesF fs = (fs.map Field.nodes).sum := by
  induction fs with
  | nil => rfl
  | cons f fs ih =>
    cases f
    simp only [Schema.nodesF, List.map_cons, List.sum_cons, ih]
    rfl

theorem nodesL_sum (ss : List Schema) : Schema.nodesL ss = (ss.map Schema.nodes).sum := by
  induction ss with
  | nil => rfl
  | cons f fs ih => simp only [Schema.nodesL, List.map_cons, List.sum_cons, ih]

theorem fieldToJson_size {lk : Lookup} {ser : Schema → Known → Option (Json × Known)}
    (h : ∀ s K j K', ser s K = some (j, K') →
      j.nodes + 8 * leftOver lk K' ≤ 8 * s.nodes + 8 * leftOver lk K)
    (f : Field) (K : Known) (j : Json) (K' : Known) (hf : fieldToJson ser f K = some (j, K')) :
    j.nodes + 8 * leftOver lk K' ≤ 8 * f.nodes + 8 * leftOver lk K := by
  unfold fieldToJson at hf
  cases hs : ser f.schema K with
  | none => simp [hs] at hf
  | some r =>
    obtain ⟨j', K1⟩ := r
    simp only [hs, Option.some.injEq, Prod.mk.injEq] at hf
    obtain ⟨rfl, rfl⟩ := hf
    have h1 := h _ _ _ _ hs
    have h2 := fieldObj_size f j'
    unfold Field.nodes
    omega

theorem logicalObj_size (lt : LogicalType) (ps : Props) :
    (Json.obj (logicalObj lt ps)).nodes ≤ 5 + Json.nodesM ps := by
  unfold logicalObj
  simp only [Json.nodes]
  have a := nodesM_insert "type" (.str lt.base.asStr) []
  have b := nodesM_insert "logicalType" (.str lt.name) (JMap.insert "type" (.str lt.base.asStr) [])
  simp only [Json.nodes, Json.nodesM] at a b
  generalize JMap.insert "logicalType" (.str lt.name) (JMap.insert "type" (.str lt.base.asStr) []) = m
    at b ⊢
  cases lt with
  | decimal p s =>
    have c := nodesM_insert "scale" (.num (.int s)) (JMap.insert "precision" (.num (.int p)) m)
    have d := nodesM_insert "precision" (.num (.int p)) m
    have f := nodesM_insertAll ps (JMap.insert "scale" (.num (.int s)) (JMap.insert "precision" (.num (.int p)) m))
    simp only [Json.nodes] at c d
    refine Nat.le_trans (Nat.add_le_add_left f 1) ?_
    omega
  | _ =>
    have f := nodesM_insertAll ps m
    refine Nat.le_trans (Nat.add_le_add_left f 1) ?_
    omega

theorem enumObj_size (sy : List String) (df : Option String) (obj : JMap) :
    Json.nodesM (enumObj sy df obj) ≤ Json.nodesM obj + sy.length + 2 := by
  unfold enumObj
  have a := nodesM_insert "symbols" (.arr (sy.map .str)) obj
  rw [Json.nodes, nodesL_strs (fun s => s)] at a
  cases df with
  | none => simp only; omega
  | some d =>
    have b := nodesM_insert "default" (.str d) (JMap.insert "symbols" (.arr (sy.map .str)) obj)
    simp only [Json.nodes] at b ⊢
    omega

theorem preamble_bare {ty nm : String} {ns doc : Option String} {K : Known} {encl : Option String}
    {bare : Json} (h : namedTypePreamble ty nm ns doc K encl = .error bare) :
    bare.nodes = 1 ∧ K.contains (makeFullName nm ns) = true := by
  unfold namedTypePreamble at h
  simp only at h
  split at h
  · injection h with h
    subst h
    exact ⟨rfl, by assumption⟩
  · cases h

theorem bare_size {lk : Lookup} {s : Schema} {bare : Json} {K : Known} {x : String}
    (h1 : bare.nodes = 1) (h2 : K.contains x = true) (hx : s.fullName? = some x := by rfl) :
    bare.nodes + 8 * leftOver lk K ≤ 8 * s.nodes + 8 * leftOver lk K ∧
    (∀ x, s.IsNamed → s.fullName? = some x → K.contains x = false →
      bare.nodes + 8 * leftOver lk K ≤ 8 * s.nodes + 8 * leftOver lk (x :: K)) ∧
    (∀ x, s.IsNamed → s.fullName? = some x → K.contains x = true → bare.nodes = 1 ∧ K = K) := by
  have hp := schema_nodes_pos s
  refine ⟨by omega, fun y _ hy hK => ?_, fun _ _ _ _ => ⟨h1, rfl⟩⟩
  rw [hx] at hy
  injection hy with hy
  subst hy
  rw [h2] at hK
  cases hK

theorem written_size {lk : Lookup} {s : Schema} {j : Json} {K K' : Known} {x : String}
    (h2 : K.contains x = false)
    (h : j.nodes + 8 * leftOver lk K' ≤ 8 * s.nodes + 8 * leftOver lk (x :: K))
    (hx : s.fullName? = some x := by rfl) :
    j.nodes + 8 * leftOver lk K' ≤ 8 * s.nodes + 8 * leftOver lk K ∧
    (∀ x, s.IsNamed → s.fullName? = some x → K.contains x = false →
      j.nodes + 8 * leftOver lk K' ≤ 8 * s.nodes + 8 * leftOver lk (x :: K)) ∧
    (∀ x, s.IsNamed → s.fullName? = some x → K.contains x = true → j.nodes = 1 ∧ K' = K) := by
  have hm := leftOver_cons lk x K
  refine ⟨by omega, fun y _ hy _ => ?_, fun y _ hy hK => ?_⟩ <;> rw [hx] at hy <;>
    injection hy with hy <;> subst hy
  · exact h
  · rw [h2] at hK; cases hK

/-- The size of what is written for a schema, and of what is still left afterwards. -/
theorem ser_size (lk : Lookup) (hlk : LookupNamed lk) : ∀ (n : Nat) (s : Schema)
    (encl : Option String) (K : Known) (j : Json) (K' : Known),
    schemaToJson lk n s encl K = some (j, K') →
    j.nodes + 8 * leftOver lk K' ≤ 8 * s.nodes + 8 * leftOver lk K ∧
    (∀ x, s.IsNamed → s.fullName? = some x → K.contains x = false →
      j.nodes + 8 * leftOver lk K' ≤ 8 * s.nodes + 8 * leftOver lk (x :: K)) ∧
    (∀ x, s.IsNamed → s.fullName? = some x → K.contains x = true → j.nodes = 1 ∧ K' = K) := by
  intro n
  induction n with
  | zero => intro s encl K j K' h; cases h
  | succ n ih =>
    intro s encl K j K' h
    cases s with
    | prim p =>
      simp only [schemaToJson, Option.some.injEq, Prod.mk.injEq] at h
      obtain ⟨rfl, rfl⟩ := h
      refine ⟨by simp only [Json.nodes, Schema.nodes]; omega, fun x hx => hx.elim, fun x hx => hx.elim⟩
    | annotated k ps =>
      simp only [schemaToJson, Option.some.injEq, Prod.mk.injEq] at h
      obtain ⟨rfl, rfl⟩ := h
      refine ⟨?_, fun x hx => hx.elim, fun x hx => hx.elim⟩
      have a := nodesM_insertAll ps (JMap.insert "type" (.str k.asStr) [])
      have b := nodesM_insert "type" (.str k.asStr) []
      simp only [Json.nodes, Schema.nodes, Json.nodesM] at a b ⊢
      omega
    | logical lt ps =>
      simp only [schemaToJson, Option.some.injEq, Prod.mk.injEq] at h
      obtain ⟨rfl, rfl⟩ := h
      refine ⟨?_, fun x hx => hx.elim, fun x hx => hx.elim⟩
      have a := logicalObj_size lt ps
      simp only [Schema.nodes] at a ⊢
      omega
    | array i ps =>
      simp only [schemaToJson] at h
      cases hi : schemaToJson lk n i encl K with
      | none => simp [hi] at h
      | some r =>
        obtain ⟨ji, K1⟩ := r
        simp only [hi, Option.some.injEq, Prod.mk.injEq] at h
        obtain ⟨rfl, rfl⟩ := h
        refine ⟨?_, fun x hx => hx.elim, fun x hx => hx.elim⟩
        have h1 := (ih _ _ _ _ _ hi).1
        have a := nodesM_insertAll ps (JMap.insert "items" ji (JMap.insert "type" (.str "array") []))
        have b := nodesM_insert "items" ji (JMap.insert "type" (.str "array") [])
        have c := nodesM_insert "type" (.str "array") []
        simp only [Json.nodes, Schema.nodes, Json.nodesM] at a b c ⊢
        omega
    | map i ps =>
      simp only [schemaToJson] at h
      cases hi : schemaToJson lk n i encl K with
      | none => simp [hi] at h
      | some r =>
        obtain ⟨ji, K1⟩ := r
        simp only [hi, Option.some.injEq, Prod.mk.injEq] at h
        obtain ⟨rfl, rfl⟩ := h
        refine ⟨?_, fun x hx => hx.elim, fun x hx => hx.elim⟩
        have h1 := (ih _ _ _ _ _ hi).1
        have a := nodesM_insertAll ps (JMap.insert "values" ji (JMap.insert "type" (.str "map") []))
        have b := nodesM_insert "values" ji (JMap.insert "type" (.str "map") [])
        have c := nodesM_insert "type" (.str "map") []
        simp only [Json.nodes, Schema.nodes, Json.nodesM] at a b c ⊢
        omega
    | union ts b =>
      simp only [schemaToJson] at h
      cases hi : mapAccum (fun s k => schemaToJson lk n s encl k) ts K with
      | none => simp [hi] at h
      | some r =>
        obtain ⟨js, K1⟩ := r
        simp only [hi, Option.some.injEq, Prod.mk.injEq] at h
        obtain ⟨rfl, rfl⟩ := h
        refine ⟨?_, fun x hx => hx.elim, fun x hx => hx.elim⟩
        have h1 := mapAccum_size (lk := lk) (size := Schema.nodes)
          (fun a K j K' h => (ih a encl K j K' h).1) ts K js _ hi
        simp only [Json.nodes, Schema.nodes, nodesL_sum]
        omega
    | ref nm ns ps sp =>
      simp only [schemaToJson] at h
      refine ⟨?_, fun x hx => hx.elim, fun x hx => hx.elim⟩
      have hp := schema_nodes_pos (.ref nm ns ps sp)
      split at h
      · simp only [Option.some.injEq, Prod.mk.injEq] at h
        obtain ⟨rfl, rfl⟩ := h
        simp only [Json.nodes]
        omega
      · cases hg : lk.get? (makeFullName nm ns) with
        | none =>
          simp only [hg, Option.some.injEq, Prod.mk.injEq] at h
          obtain ⟨rfl, rfl⟩ := h
          simp only [Json.nodes]
          omega
        | some t =>
          simp only [hg] at h
          have hm := mem_of_get? hg
          obtain ⟨kt, hkt, rfl⟩ := List.mem_map.mp hm
          have hn := hlk kt hkt
          obtain ⟨x, hx⟩ : ∃ x, kt.2.fullName? = some x := by
            cases he : kt.2 <;> rw [he] at hn <;> simp_all [Schema.IsNamed, Schema.fullName?]
          obtain ⟨_, i2, i3⟩ := ih _ _ _ _ _ h
          cases hc : K.contains x with
          | true =>
            obtain ⟨e1, e2⟩ := i3 x hn hx hc
            subst e2
            omega
          | false =>
            have := i2 x hn hx hc
            have := leftOver_write hm hx hc
            omega
    | enum nm ns doc sy df al ps =>
      simp only [schemaToJson] at h
      cases hp : namedTypePreamble "enum" nm ns doc K encl with
      | error bare =>
        obtain ⟨e1, e2⟩ := preamble_bare hp
        simp only [hp, Option.some.injEq, Prod.mk.injEq] at h
        obtain ⟨rfl, rfl⟩ := h
        exact bare_size e1 e2
      | ok r =>
        obtain ⟨obj, K1⟩ := r
        obtain ⟨p1, rfl, p3⟩ := preamble_size hp
        simp only [hp, Option.some.injEq, Prod.mk.injEq] at h
        obtain ⟨rfl, rfl⟩ := h
        refine written_size p3 ?_
        have a := finish_size (enumObj sy df obj) ps al ns
        have b := enumObj_size sy df obj
        simp only [Json.nodes, Schema.nodes]
        omega
    | fixed nm ns doc sz al ps =>
      simp only [schemaToJson] at h
      cases hp : namedTypePreamble "fixed" nm ns doc K encl with
      | error bare =>
        obtain ⟨e1, e2⟩ := preamble_bare hp
        simp only [hp, Option.some.injEq, Prod.mk.injEq] at h
        obtain ⟨rfl, rfl⟩ := h
        exact bare_size e1 e2
      | ok r =>
        obtain ⟨obj, K1⟩ := r
        obtain ⟨p1, rfl, p3⟩ := preamble_size hp
        simp only [hp, Option.some.injEq, Prod.mk.injEq] at h
        obtain ⟨rfl, rfl⟩ := h
        refine written_size p3 ?_
        have a := finish_size (JMap.insert "size" (.num (.int sz)) obj) ps al ns
        have b := nodesM_insert "size" (.num (.int sz)) obj
        simp only [Json.nodes, Schema.nodes] at b ⊢
        omega
    | record nm ns doc fs er al ps =>
      simp only [schemaToJson] at h
      cases hp : namedTypePreamble (if er then "error" else "record") nm ns doc K encl with
      | error bare =>
        obtain ⟨e1, e2⟩ := preamble_bare hp
        simp only [hp, Option.some.injEq, Prod.mk.injEq] at h
        obtain ⟨rfl, rfl⟩ := h
        exact bare_size e1 e2
      | ok r =>
        obtain ⟨obj, K1⟩ := r
        obtain ⟨p1, rfl, p3⟩ := preamble_size hp
        simp only [hp] at h
        cases hi : mapAccum (fieldToJson fun s k => schemaToJson lk n s (ns.or encl) k) fs
            (makeFullName nm ns :: K) with
        | none => simp [hi] at h
        | some r =>
          obtain ⟨js, K2⟩ := r
          simp only [hi, Option.some.injEq, Prod.mk.injEq] at h
          obtain ⟨rfl, rfl⟩ := h
          refine written_size p3 ?_
          have h1 := mapAccum_size (lk := lk) (size := Field.nodes)
            (fieldToJson_size fun s K j K' h => (ih s (ns.or encl) K j K' h).1) fs _ js _ hi
          have a := finish_size (JMap.insert "fields" (.arr js) obj) ps al ns
          have b := nodesM_insert "fields" (.arr js) obj
          simp only [Json.nodes, Schema.nodes, nodesF_sum] at b ⊢
          omega

theorem messageObj_size (m : Message) (req : List Json) (resp : Json) (es : Option (List Json)) :
    (Json.obj (messageObj m req resp es)).nodes ≤
      5 + Json.nodesM m.props + Json.nodesL req + resp.nodes + Json.nodesL (es.getD []) := by
  have e : messageObj m req resp es =
      addOpt "one-way" (if m.oneWay then some (.bool true) else none)
        (addOpt "errors" (es.map .arr) (JMap.insert "response" resp (JMap.insert "request" (.arr req)
          ((addOpt "doc" (m.doc.map fun d => .str d) []).insertAll m.props)))) := by
    obtain ⟨doc, ps, r, re, er, ow⟩ := m
    cases doc <;> cases es <;> cases ow <;> rfl
  have a1 := addOpt_size "doc" (m.doc.map fun d => .str d) []
  have a1' := str_size m.doc fun d => d
  simp only [Json.nodesM] at a1
  rw [e]
  generalize addOpt "doc" (m.doc.map fun d => .str d) [] = m1 at a1 ⊢
  have a2 := nodesM_insertAll m.props m1
  generalize JMap.insertAll m1 m.props = m2 at a2 ⊢
  have a3 := nodesM_insert "request" (.arr req) m2
  have a4 := nodesM_insert "response" resp (JMap.insert "request" (.arr req) m2)
  generalize JMap.insert "response" resp (JMap.insert "request" (.arr req) m2) = m3 at a4 ⊢
  have a5 := addOpt_size "errors" (es.map .arr) m3
  have a5' : (((es.map Json.arr).map Json.nodes).getD 0) ≤ 1 + Json.nodesL (es.getD []) := by
    cases es <;> simp [Json.nodes]
  generalize addOpt "errors" (es.map .arr) m3 = m4 at a5 ⊢
  have a6 := addOpt_size "one-way" (if m.oneWay then some (.bool true) else none) m4
  have a6' : ((((if m.oneWay then some (Json.bool true) else none : Option Json)).map Json.nodes).getD 0) ≤ 1 := by
    split <;> simp [Json.nodes]
  simp only [Json.nodes] at a3 ⊢
  omega

theorem messageToJson_size {lk : Lookup} (hlk : LookupNamed lk) {n : Nat} {encl : Option String}
    {m : Message} {K : Known} {j : Json} {K' : Known} (h : messageToJson lk n encl m K = some (j, K')) :
    j.nodes + 8 * leftOver lk K' ≤ 8 * m.nodes + 8 * leftOver lk K := by
  unfold messageToJson at h
  cases h1 : mapAccum (fieldToJson fun s k => schemaToJson lk n s encl k) m.request K with
  | none => simp [h1] at h
  | some r =>
    obtain ⟨req, K1⟩ := r
    simp only [h1] at h
    have i1 := mapAccum_size (lk := lk) (size := Field.nodes)
      (fieldToJson_size fun s K j K' h => (ser_size lk hlk n s encl K j K' h).1) _ _ _ _ h1
    rw [← nodesF_sum] at i1
    cases h2 : schemaToJson lk n m.response encl K1 with
    | none => simp [h2] at h
    | some r =>
      obtain ⟨resp, K2⟩ := r
      simp only [h2] at h
      have i2 := (ser_size lk hlk _ _ _ _ _ _ h2).1
      cases h3 : m.errors with
      | none =>
        simp only [h3, Option.some.injEq, Prod.mk.injEq] at h
        obtain ⟨rfl, rfl⟩ := h
        have a := messageObj_size m req resp none
        simp only [Option.getD_none, Json.nodesL] at a
        simp only [Message.nodes]
        omega
      | some es =>
        simp only [h3] at h
        cases h4 : mapAccum (fun s k => schemaToJson lk n s encl k) es K2 with
        | none => simp [h4] at h
        | some r =>
          obtain ⟨ej, K3⟩ := r
          simp only [h4, Option.some.injEq, Prod.mk.injEq] at h
          obtain ⟨rfl, rfl⟩ := h
          have i3 := mapAccum_size (lk := lk) (size := Schema.nodes)
            (fun a K j K' h => (ser_size lk hlk n a encl K j K' h).1) _ _ _ _ h4
          rw [← nodesL_sum] at i3
          have a := messageObj_size m req resp (some ej)
          simp only [Option.getD_some] at a
          simp only [Message.nodes, h3, Option.getD_some]
          omega

theorem messagesToJson_size {lk : Lookup} (hlk : LookupNamed lk) {n : Nat} {encl : Option String} :
    ∀ (ms : List (String × Message)) (K : Known) (js : List (String × Json)) (K' : Known),
    mapAccum (fun (nm : String × Message) k =>
      (messageToJson lk n encl nm.2 k).map fun jk => ((nm.1, jk.1), jk.2)) ms K = some (js, K') →
    Json.nodesM js + 8 * leftOver lk K' ≤ 8 * Message.nodesL ms + 8 * leftOver lk K
  | [], K, js, K', h => by
      simp only [mapAccum, Option.some.injEq, Prod.mk.injEq] at h
      obtain ⟨rfl, rfl⟩ := h
      simp [Json.nodesM, Message.nodesL]
  | nm :: ms, K, js, K', h => by
      simp only [mapAccum] at h
      cases h1 : messageToJson lk n encl nm.2 K with
      | none => simp [h1] at h
      | some r =>
        obtain ⟨j, K1⟩ := r
        simp only [h1, Option.map_some] at h
        cases h2 : mapAccum (fun (nm : String × Message) k =>
            (messageToJson lk n encl nm.2 k).map fun jk => ((nm.1, jk.1), jk.2)) ms K1 with
        | none => simp [h2] at h
        | some r =>
          obtain ⟨js', K2⟩ := r
          simp only [h2, Option.some.injEq, Prod.mk.injEq] at h
          obtain ⟨rfl, rfl⟩ := h
          have i1 := messageToJson_size hlk h1
          have i2 := messagesToJson_size hlk ms K1 js' K2 h2
          simp only [Json.nodesM, Message.nodesL]
          omega

theorem protocolObj_size (p : Protocol) (types : List Json) (ms : List (String × Json)) :
    (Json.obj (protocolObj p types ms)).nodes ≤
      6 + Json.nodesM p.props + Json.nodesL types + Json.nodesM ms := by
  have e : protocolObj p types ms =
      JMap.insert "messages" (.obj (JMap.insertAll [] ms)) (JMap.insert "types"
        (.arr (types.filter fun v => !v.isStr))
        ((addOpt "doc" (p.doc.map fun d => .str d) (addOpt "namespace"
          (p.ns.bind fun n => if n = "" then none else some (.str n))
          (JMap.insert "protocol" (.str p.name) []))).insertAll p.props)) := by
    obtain ⟨name, ns, doc, ps, ts, mm⟩ := p
    cases doc <;> cases ns with
    | none => rfl
    | some n => by_cases hn : n = "" <;> simp [protocolObj, addOpt, hn]
  have a0 := nodesM_insert "protocol" (.str p.name) []
  rw [e]
  generalize JMap.insert "protocol" (.str p.name) [] = m0 at a0 ⊢
  have a1 := addOpt_size "namespace" (p.ns.bind fun n => if n = "" then none else some (.str n)) m0
  have a1' : (((p.ns.bind fun n => if n = "" then none else some (Json.str n)).map
      Json.nodes).getD 0) ≤ 1 := by
    cases p.ns with
    | none => simp
    | some n => simp only [Option.bind_some]; split <;> simp [Json.nodes]
  generalize addOpt "namespace" (p.ns.bind fun n => if n = "" then none else some (.str n)) m0 = m1
    at a1 ⊢
  have a2 := addOpt_size "doc" (p.doc.map fun d => .str d) m1
  have a2' := str_size p.doc fun d => d
  generalize addOpt "doc" (p.doc.map fun d => .str d) m1 = m2 at a2 ⊢
  have a3 := nodesM_insertAll p.props m2
  generalize JMap.insertAll m2 p.props = m3 at a3 ⊢
  have a4 := nodesM_insert "types" (.arr (types.filter fun v => !v.isStr)) m3
  have a4' := nodesL_filter (fun v => !v.isStr) types
  generalize JMap.insert "types" (.arr (types.filter fun v => !v.isStr)) m3 = m4 at a4 ⊢
  have a5 := nodesM_insert "messages" (.obj (JMap.insertAll [] ms)) m4
  have a5' := nodesM_insertAll ms []
  simp only [Json.nodes, Json.nodesM] at a0 a4 a5 a5' ⊢
  omega

theorem leftOver_flat {types : List Schema} (h : ∀ t ∈ types, t.flatDef = true) (d : Option String) :
    leftOver (buildLookup types d) [] = Schema.nodesL types := by
  unfold leftOver
  rw [buildLookup_flat d types h, List.filter_eq_self.mpr (by simp), ← List.map_reverse, List.map_map]
  have : (Prod.snd ∘ fun t => (lookupKey d t, t)) = (id : Schema → Schema) := rfl
  rw [this, List.map_id, nodesL_reverse]

theorem lookupNamed_flat {types : List Schema} (h : ∀ t ∈ types, t.flatDef = true) (d : Option String) :
    LookupNamed (buildLookup types d) := by
  intro kt hkt
  rw [buildLookup_flat d types h] at hkt
  obtain ⟨t, ht, rfl⟩ := List.mem_map.mp (List.mem_reverse.mp hkt)
  exact Schema.isNamed_of_flatDef (h t ht)

theorem protocolToJson_size {n : Nat} {p : Protocol} {j : Json}
    (hf : ∀ t ∈ p.types, t.flatDef = true) (h : protocolToJson n p = some j) :
    j.nodes ≤ 8 * p.nodes + 8 * Schema.nodesL p.types := by
  unfold protocolToJson at h
  simp only at h
  have hlk := lookupNamed_flat hf p.ns
  have hl := leftOver_flat hf p.ns
  generalize buildLookup p.types p.ns = lk at h hlk hl
  cases h1 : mapAccum (fun s k => schemaToJson lk n s p.ns k) p.types [] with
  | none => simp [h1] at h
  | some r =>
    obtain ⟨ts, K⟩ := r
    simp only [h1] at h
    have i1 := mapAccum_size (lk := lk) (size := Schema.nodes)
      (fun a K j K' h => (ser_size lk hlk n a p.ns K j K' h).1) _ _ _ _ h1
    rw [← nodesL_sum] at i1
    cases h2 : mapAccum (fun (nm : String × Message) k =>
        (messageToJson lk n p.ns nm.2 k).map fun jk => ((nm.1, jk.1), jk.2)) p.messages K with
    | none => simp [h2] at h
    | some r =>
      obtain ⟨ms, K2⟩ := r
      simp only [h2, Option.some.injEq] at h
      subst h
      have i2 := messagesToJson_size hlk _ _ _ _ h2
      have a := protocolObj_size p ts ms
      simp only [Protocol.nodes]
      omega

theorem nodes_le_nodesL {s : Schema} {l : List Schema} (h : s ∈ l) : s.nodes ≤ Schema.nodesL l := by
  induction l with
  | nil => cases h
  | cons a l ih =>
    simp only [Schema.nodesL]
    rcases List.mem_cons.mp h with rfl | h
    · omega
    · have := ih h; omega

theorem extracted_mem {n : Nat} {types : List Schema} {docs : List (String × Json)}
    (h : extractSchemas n types = some docs) {d : String × Json} (hd : d ∈ docs) :
    ∃ s ∈ types, ∃ K, schemaToJson (buildLookup types none) n s none [] = some (d.2, K) := by
  unfold extractSchemas at h
  simp only at h
  generalize buildLookup types none = lk at h ⊢
  induction types generalizing docs with
  | nil => simp only [extractSchemas.go, Option.some.injEq] at h; subst h; cases hd
  | cons s ss ih =>
    simp only [extractSchemas.go] at h
    split at h
    · obtain ⟨s', a, b⟩ := ih hd h
      exact ⟨s', List.mem_cons_of_mem _ a, b⟩
    · split at h
      · cases h
      · rename_i j K hser
        cases hg : extractSchemas.go n lk ss with
        | none => simp [hg] at h
        | some rest =>
          simp only [hg, Option.map_some, Option.some.injEq] at h
          subst h
          rcases List.mem_cons.mp hd with rfl | hd
          · exact ⟨s, List.mem_cons_self .., K, hser⟩
          · obtain ⟨s', a, b⟩ := ih hd hg
            exact ⟨s', List.mem_cons_of_mem _ a, b⟩

end Avdl
