import Verif.Lemmas.Registry
/-!
# Properties C11, C12, C13: default values

The specification is `Verif/Spec/Default.lean`.
-/

namespace Avdl.Props

open Spec

/-- `enum E { A, B }` -/
private def exE : Schema := .enum "E" (some "p") none ["A", "B"] none [] []
/-- `record R { int i; array<string> l = []; union {null, E} e = null; }` with `E` in-line. -/
private def exR : Schema := .record "R" (some "p") none
  [ .mk "i" (.prim .int) none none none [] []
  , .mk "l" (.array (.prim .string) []) none (some (.arr [])) none [] []
  , .mk "u" (.union [.prim .null, exE] false) none (some .null) none [] [] ] false [] []

/-! ## C11 -/

/-- **C11.** A default is accepted for a reference-free type exactly when it conforms to the
type under Avro's rules, whatever the type table. -/
theorem C11_accepted_iff_conforms (res : String → Option Schema) (s : Schema) (h : RefFree s)
    (v : Json) : isValidDefault v s = true ↔ Conforms res v s := by
  rw [valid_iff_conformsU s [] v fun x sp hx => absurd hx (h x sp)]
  exact (conforms_iff_conformsU_refFree res s _ [] v h).symm

private theorem exR_refFree : RefFree exR := by
  intro x sp h
  cases h with
  | field hf h =>
    simp only [List.mem_cons, List.not_mem_nil, or_false] at hf
    rcases hf with rfl | rfl | rfl
    · cases h
    · cases h with | items h => cases h
    · cases h with
      | branch ht h =>
        simp only [List.mem_cons, List.not_mem_nil, or_false] at ht
        rcases ht with rfl | rfl <;> cases h

/-- Non-vacuity: a record with nested array and union is reference-free, and both outcomes
occur. -/
example : RefFree exR ∧
    isValidDefault (.obj [("i", .num (.int 3)), ("u", .str "A")]) exR = true ∧
    isValidDefault (.obj [("i", .num (.int 2147483648))]) exR = false ∧
    isValidDefault (.obj [("l", .arr [])]) exR = false :=
  ⟨exR_refFree, rfl, rfl, rfl⟩

/-- Under the stricter reading of the Avro specification, in which the default of an enum-typed
field must be one of the enum's symbols, the check is too permissive: any string is accepted. -/
theorem C11_enum_symbol_not_checked : isValidDefault (.str "Z") exE = true ∧
    "Z" ∉ ["A", "B"] := ⟨rfl, by decide⟩

/-- Likewise the length of a `fixed` default is not compared with the declared size. -/
theorem C11_fixed_length_not_checked :
    isValidDefault (.str "abc") (.fixed "F" none none 16 [] []) = true := rfl

/-! ## C12 -/

/-- **C12, first part.** A reason is produced exactly for defaults that are not accepted. -/
theorem C12_reason_iff_rejected (s : Schema) (v : Json) :
    (∃ r, validateDefault v s = some r) ↔ isValidDefault v s = false := by
  have := validateDefault_none_iff s v
  cases h : validateDefault v s with
  | none => simp [this.mp h]
  | some r =>
    rw [h] at this
    simp only [reduceCtorEq, false_iff, Bool.not_eq_true] at this
    simp [this]

/-- ... hence, for reference-free types, exactly for the non-conforming ones. -/
theorem C12_reason_iff_nonconforming (res : String → Option Schema) (s : Schema) (h : RefFree s)
    (v : Json) : (∃ r, validateDefault v s = some r) ↔ ¬ Conforms res v s := by
  rw [C12_reason_iff_rejected, ← C11_accepted_iff_conforms res s h v]
  simp

/-- What a reason claims about a value and a type. -/
inductive Explains : Json → Schema → DefaultReason → Prop
  /-- "... out of range for int": an integer outside the 32-bit range. -/
  | outOfRangeInt {i : Int} : (i < -2147483648 ∨ 2147483647 < i) →
      Explains (.num (.int i)) (.prim .int) (.outOfRangeInt (.int i))
  /-- "... out of range for long" -/
  | outOfRangeLong {i : Int} : (i < -9223372036854775808 ∨ 9223372036854775807 < i) →
      Explains (.num (.int i)) (.prim .long) (.outOfRangeLong (.int i))
  /-- "missing required field(s)": the list is not empty, and it consists of all the fields
  that have no default and are absent from the object. -/
  | missingRequired {o n ns d fs e al ps l} : l ≠ [] →
      (∀ x, x ∈ l ↔ ∃ f ∈ fs, f.name = x ∧ f.default = none ∧ lookup o x = none) →
      Explains (.obj o) (.record n ns d fs e al ps) (.missingRequired n l)
  /-- "invalid value for field": the value supplied for that field is explained by the inner
  reason. -/
  | invalidField {o n ns d fs e al ps f v r} : f ∈ fs → lookup o f.name = some v →
      Explains v f.schema r →
      Explains (.obj o) (.record n ns d fs e al ps) (.invalidField f.name r)
  /-- "expected ..., got ...": the words describe the type and the value.  For records this is
  used only for values that are not objects. -/
  | mismatch {v s exp got} : isValidDefault v s = false →
      (∀ n ns d fs e al ps, s = .record n ns d fs e al ps → ∀ o, v ≠ .obj o) →
      TypeWords s exp → KindWord v got → Explains v s (.mismatch exp got)

theorem kindWord (v : Json) : KindWord v (jsonTypeDescription v) := by
  cases v <;> constructor

theorem primWord (p : Prim) : PrimWord p p.asStr := by cases p <;> constructor

theorem typeWords (s : Schema) : TypeWords s s.typeDescription := by
  cases s with
  | prim p => exact .prim (primWord p)
  | annotated p ps => exact .annotated (primWord p)
  | logical lt ps => cases lt <;> constructor
  | _ => constructor

theorem mem_missingRequired (o : JMap) (fs : List Field) (x : String) :
    x ∈ missingRequired o fs ↔ ∃ f ∈ fs, f.name = x ∧ f.default = none ∧ lookup o x = none := by
  simp only [missingRequired, List.mem_map, List.mem_filter, Bool.and_eq_true,
    Option.isNone_iff_eq_none, lookup_eq_get?]
  constructor
  · rintro ⟨f, ⟨hf, h1, h2⟩, rfl⟩; exact ⟨f, hf, rfl, h1, h2⟩
  · rintro ⟨f, hf, rfl, h1, h2⟩; exact ⟨f, ⟨hf, h1, h2⟩, rfl⟩

theorem firstInvalidField_some {o : JMap} {fs : List Field} {r : DefaultReason}
    (h : firstInvalidField o fs = some r) : ∃ f ∈ fs, ∃ v r', lookup o f.name = some v ∧
      validateDefault v f.schema = some r' ∧ r = .invalidField f.name r' := by
  induction fs with
  | nil => simp [firstInvalidField] at h
  | cons f fs ih =>
    cases f with
    | mk n s d df or al ps =>
      simp only [firstInvalidField] at h
      cases hget : JMap.get? o n with
      | none =>
        rw [hget] at h
        obtain ⟨f, hf, h⟩ := ih h
        exact ⟨f, List.mem_cons_of_mem _ hf, h⟩
      | some fv =>
        rw [hget] at h
        simp only at h
        cases hv : validateDefault fv s with
        | none =>
          rw [hv] at h
          obtain ⟨f, hf, h⟩ := ih h
          exact ⟨f, List.mem_cons_of_mem _ hf, h⟩
        | some r' =>
          rw [hv] at h
          simp only [Option.some.injEq] at h
          exact ⟨_, List.mem_cons_self .., fv, r', by rw [lookup_eq_get?]; exact hget, hv, h.symm⟩

theorem validPrim_false_int {n : JNum} (h : ¬ validPrim (.num n) .int = true)
    (hi : n.isInteger = true) : ∃ i, n = .int i ∧ (i < -2147483648 ∨ 2147483647 < i) := by
  cases n with
  | float => simp [JNum.isInteger, JNum.isI64, JNum.isU64] at hi
  | int i =>
    refine ⟨i, rfl, ?_⟩
    rw [validPrim_iff] at h
    by_cases h1 : i < -2147483648
    · exact .inl h1
    · by_cases h2 : 2147483647 < i
      · exact .inr h2
      · exact absurd (ConformsPrim.int i (by omega) (by omega)) h

theorem validPrim_false_long {n : JNum} (h : ¬ validPrim (.num n) .long = true)
    (hi : n.isInteger = true) : ∃ i, n = .int i ∧
      (i < -9223372036854775808 ∨ 9223372036854775807 < i) := by
  cases n with
  | float => simp [JNum.isInteger, JNum.isI64, JNum.isU64] at hi
  | int i =>
    refine ⟨i, rfl, ?_⟩
    rw [validPrim_iff] at h
    by_cases h1 : i < -9223372036854775808
    · exact .inl h1
    · by_cases h2 : 9223372036854775807 < i
      · exact .inr h2
      · exact absurd (ConformsPrim.long i (by omega) (by omega)) h

/-- **C12, second part.** The reason is truthful: in particular, for a record default with
missing required fields it names all of them. -/
theorem C12_reason_explains (s : Schema) : ∀ (v : Json) (r : DefaultReason),
    validateDefault v s = some r → Explains v s r := by
  have plain : ∀ (s : Schema) (v : Json) (exp : String) (r : DefaultReason),
      isValidDefault v s = false →
      (∀ n ns d fs e al ps, s ≠ .record n ns d fs e al ps) → exp = s.typeDescription →
      some (DefaultReason.mismatch exp (jsonTypeDescription v)) = some r → Explains v s r := by
    intro s v exp r h1 h2 h3 h4
    cases h4
    exact .mismatch h1 (fun n ns d fs e al ps hs => absurd hs (h2 n ns d fs e al ps))
      (h3 ▸ typeWords s) (kindWord v)
  induction s using Schema.induct with
  | prim p =>
    intro v r h
    simp only [validateDefault] at h
    split at h
    · cases h
    · rename_i hv
      have hv' : isValidDefault v (.prim p) = false := by simpa [isValidDefault] using hv
      split at h
      · rename_i n
        split at h
        · obtain ⟨i, rfl, hi⟩ := validPrim_false_int hv (by assumption)
          cases h; exact .outOfRangeInt hi
        · exact plain _ _ _ _ hv' (by simp) rfl h
      · rename_i n
        split at h
        · obtain ⟨i, rfl, hi⟩ := validPrim_false_long hv (by assumption)
          cases h; exact .outOfRangeLong hi
        · exact plain _ _ _ _ hv' (by simp) rfl h
      · exact plain _ _ _ _ hv' (by simp) rfl h
  | record n ns d fs e al ps ih =>
    intro v r h
    simp only [validateDefault] at h
    split at h
    · cases h
    · rename_i hv
      have hv' := Bool.eq_false_iff.mpr hv
      cases v with
      | obj o =>
        simp only at h
        split at h
        · rename_i hm
          split at h
          · rename_i r' hr
            cases h
            obtain ⟨f, hf, v, r', h1, h2, rfl⟩ := firstInvalidField_some hr
            exact .invalidField hf h1 (ih f hf v r' h2)
          · rename_i hn
            exfalso
            apply hv
            rw [isValidDefault, validFields_iff]
            have h1 := firstInvalidField_none
              (fun f _ v => (validateDefault_none_iff f.schema v).mp) hn
            refine ⟨h1, ?_⟩
            intro f hf hnone hd
            have : f.name ∈ missingRequired o fs :=
              (mem_missingRequired o fs f.name).mpr ⟨f, hf, rfl, hd, hnone⟩
            rw [hm] at this
            cases this
        · rename_i m ms hm
          cases h
          refine .missingRequired (by simp) ?_
          intro x
          rw [← hm]
          exact mem_missingRequired o fs x
      | _ =>
        simp only [Option.some.injEq] at h
        subst h
        refine .mismatch hv' ?_ .record (kindWord _)
        intros; simp
  | ref n ns ps sp => intro v r h; simp [validateDefault] at h
  | _ =>
    intro v r h
    simp only [validateDefault] at h
    split at h
    · cases h
    · rename_i hv
      exact plain _ _ _ _ (Bool.eq_false_iff.mpr hv) (by simp) rfl h

/-- Non-vacuity: two missing required fields are both named. -/
example : validateDefault (.obj [("y", .num (.int 1))]) (.record "P" none none
    [ .mk "x" (.prim .int) none none none [] [], .mk "y" (.prim .int) none none none [] []
    , .mk "z" (.prim .int) none none none [] [] ] false [] [])
    = some (.missingRequired "P" ["x", "z"]) := by rfl

example : validateDefault (.obj [("i", .num (.int 1)), ("l", .arr [.null])]) exR
    = some (.invalidField "l" (.mismatch "array" "array")) := by rfl

/-! ## C13 -/

theorem go_some {res : String → Option Schema} {n : Nat} {fs : List Field}
    {errs : List (String × DefaultReason)}
    (h : validateRecordFieldDefaults.go res n fs = some errs) :
    (∀ x ∈ errs, ∃ f ∈ fs, f.name = x.1 ∧ ∃ v r, f.default = some v ∧
      resolveInner res n f.schema [] = .done r ∧ validateDefault v r = some x.2) ∧
    (∀ f ∈ fs, ∀ v, f.default = some v → (resolveInner res n f.schema [] ≠ .timeout) ∧
      ∀ r, resolveInner res n f.schema [] = .done r →
      ∀ reason, validateDefault v r = some reason → (f.name, reason) ∈ errs) := by
  induction fs generalizing errs with
  | nil =>
    simp only [validateRecordFieldDefaults.go, Option.some.injEq] at h
    subst h; simp
  | cons f fs ih =>
    simp only [validateRecordFieldDefaults.go] at h
    have lift : ∀ {errs'}, validateRecordFieldDefaults.go res n fs = some errs' → errs' = errs →
        (∀ v, f.default = some v → (resolveInner res n f.schema [] ≠ .timeout) ∧
          ∀ r, resolveInner res n f.schema [] = .done r →
          ∀ reason, validateDefault v r = some reason → (f.name, reason) ∈ errs) →
        (∀ x ∈ errs, ∃ g ∈ f :: fs, g.name = x.1 ∧ ∃ v r, g.default = some v ∧
          resolveInner res n g.schema [] = .done r ∧ validateDefault v r = some x.2) ∧
        (∀ g ∈ f :: fs, ∀ v, g.default = some v → (resolveInner res n g.schema [] ≠ .timeout) ∧
          ∀ r, resolveInner res n g.schema [] = .done r →
          ∀ reason, validateDefault v r = some reason → (g.name, reason) ∈ errs) := by
      intro errs' hgo he hf
      subst he
      obtain ⟨h1, h2⟩ := ih hgo
      refine ⟨fun x hx => ?_, fun g hg => ?_⟩
      · obtain ⟨g, hg, h⟩ := h1 x hx
        exact ⟨g, List.mem_cons_of_mem _ hg, h⟩
      · rcases List.mem_cons.mp hg with rfl | hg
        · exact hf
        · exact h2 g hg
    cases hd : f.default with
    | none =>
      rw [hd] at h
      exact lift h rfl (by intro v hv; rw [hd] at hv; cases hv)
    | some v =>
      rw [hd] at h
      simp only at h
      cases hr : resolveInner res n f.schema [] with
      | timeout => rw [hr] at h; cases h
      | unresolved =>
        rw [hr] at h
        exact lift h rfl (by
          intro w hw
          exact ⟨by rw [hr]; simp, fun r h' => by rw [hr] at h'; cases h'⟩)
      | done r =>
        rw [hr] at h
        simp only at h
        cases hv : validateDefault v r with
        | none =>
          rw [hv] at h
          exact lift h rfl (by
            intro w hw
            rw [hd] at hw; cases hw
            refine ⟨by rw [hr]; simp, fun r' h' reason hv' => ?_⟩
            rw [hr] at h'; cases h'
            rw [hv] at hv'; cases hv')
        | some reason =>
          rw [hv] at h
          simp only [Option.map_eq_some_iff] at h
          obtain ⟨errs', hgo, rfl⟩ := h
          obtain ⟨h1, h2⟩ := ih hgo
          refine ⟨fun x hx => ?_, fun g hg w hw => ?_⟩
          · rcases List.mem_cons.mp hx with rfl | hx
            · exact ⟨f, by simp, rfl, v, r, hd, hr, hv⟩
            · obtain ⟨g, hg, h⟩ := h1 x hx
              exact ⟨g, List.mem_cons_of_mem _ hg, h⟩
          · rcases List.mem_cons.mp hg with rfl | hg
            · rw [hd] at hw; cases hw
              refine ⟨by rw [hr]; simp, fun r' h' reason' hv' => ?_⟩
              rw [hr] at h'; cases h'
              rw [hv] at hv'; cases hv'
              simp
            · obtain ⟨a, b⟩ := h2 g hg w hw
              exact ⟨a, fun r h reason h' => List.mem_cons_of_mem _ (b r h reason h')⟩

theorem go_total {res : String → Option Schema} {n : Nat} {fs : List Field}
    (h : ∀ f ∈ fs, resolveInner res n f.schema [] ≠ .timeout) :
    validateRecordFieldDefaults.go res n fs ≠ none := by
  induction fs with
  | nil => simp [validateRecordFieldDefaults.go]
  | cons f fs ih =>
    have ih := ih fun f hf => h f (List.mem_cons_of_mem _ hf)
    have hf := h f (by simp)
    simp only [validateRecordFieldDefaults.go]
    cases f.default with
    | none => exact ih
    | some v =>
      simp only
      cases hr : resolveInner res n f.schema [] with
      | timeout => exact absurd hr hf
      | unresolved => exact ih
      | done r =>
        simp only
        cases validateDefault v r with
        | none => exact ih
        | some => simpa using ih

theorem go_mono {res : String → Option Schema} {n m : Nat} (hnm : n ≤ m) {fs : List Field}
    (h : ∀ f ∈ fs, resolveInner res n f.schema [] ≠ .timeout) :
    validateRecordFieldDefaults.go res m fs = validateRecordFieldDefaults.go res n fs := by
  induction fs with
  | nil => rfl
  | cons f fs ih =>
    simp only [validateRecordFieldDefaults.go]
    rw [ih fun f hf => h f (List.mem_cons_of_mem _ hf), resolve_mono res hnm (h f (by simp))]

/-- **C13, termination.** For every registry (cyclic or not) and every declared schema the
check of its field defaults terminates: from some amount of fuel on it always gives the same
list of errors. -/
theorem C13_check_terminates (r : Registry) (hr : r.Ok) (s : Schema) :
    ∃ n errs, ∀ m, n ≤ m → validateRecordFieldDefaults r.find? m s = some errs := by
  cases s with
  | record nm ns d fs e al ps =>
    have key : ∀ f ∈ fs, resolveInner r.find?
        ((Schema.record nm ns d fs e al ps).depth + unknownCount r [] * (lookupDepth r + 1))
        f.schema [] ≠ .timeout := by
      intro f hf
      apply resolve_total r hr
      refine Nat.le_trans (resolveBound_le r f.schema []) ?_
      have := Schema.depth_le_depthF hf
      simp only [Schema.depth]
      omega
    have h0 := go_total key
    obtain ⟨errs, he⟩ := Option.ne_none_iff_exists'.mp h0
    exact ⟨_, errs, fun m hm => (go_mono hm key).trans he⟩
  | _ => exact ⟨0, [], fun m _ => rfl⟩

/-- **C13, no false alarms.** A default reported as invalid belongs to a field with that name
and does not conform to the field's type as defined by the registry. -/
theorem C13_rejected_is_nonconforming (res : String → Option Schema) (n : Nat)
    (nm : String) (ns d : Option String) (fs : List Field) (e : Bool) (al : List String)
    (ps : Props) (errs : List (String × DefaultReason))
    (h : validateRecordFieldDefaults res n (.record nm ns d fs e al ps) = some errs) :
    ∀ x ∈ errs, ∃ f ∈ fs, f.name = x.1 ∧ ∃ v, f.default = some v ∧ ¬ Conforms res v f.schema := by
  intro x hx
  obtain ⟨f, hf, hn, v, r, hd, hr, hv⟩ := (go_some h).1 x hx
  refine ⟨f, hf, hn, v, hd, fun hc => ?_⟩
  have := (resolved_valid_iff res n f.schema [] r hr v).mpr (Conforms.toU hc [])
  rw [(validateDefault_none_iff r v).mpr this] at hv
  cases hv

/-- **C13, what acceptance means.** If the check finds no error then each default of a field all
of whose types are already registered conforms to the field's type, recursive positions being
treated as unknown. -/
theorem C13_accepted_conforms (res : String → Option Schema) (n : Nat)
    (nm : String) (ns d : Option String) (fs : List Field) (e : Bool) (al : List String)
    (ps : Props)
    (h : validateRecordFieldDefaults res n (.record nm ns d fs e al ps) = some [])
    (f : Field) (hf : f ∈ fs) (v : Json) (hv : f.default = some v)
    (hres : ∀ x, Mentions res f.schema x → res x ≠ none) :
    ConformsU res [] v f.schema := by
  obtain ⟨ht, hd⟩ := (go_some h).2 f hf v hv
  cases hr : resolveInner res n f.schema [] with
  | timeout => exact absurd hr ht
  | unresolved =>
    obtain ⟨x, hx, hn⟩ := resolve_unresolved res n f.schema [] hr
    exact absurd hn (hres x hx)
  | done r =>
    refine (resolved_valid_iff res n f.schema [] r hr v).mp ?_
    rw [← validateDefault_none_iff]
    cases hval : validateDefault v r with
    | none => rfl
    | some reason => cases hd r hr reason hval

/-- A self-recursive record `record Node { int x; union {null, Node} next = null; }` and a record
with a default of that type: `record Top { Node n = {"x": 1, "next": {"x": 2}}; }`. -/
private def exNode : Schema := .record "Node" (some "p") none
  [ .mk "x" (.prim .int) none none none [] []
  , .mk "next" (.union [.prim .null, .ref "Node" (some "p") [] none] false) none (some .null)
      none [] [] ] false [] []
private def exTop (d : Json) : Schema := .record "Top" (some "p") none
  [ .mk "n" (.ref "Node" (some "p") [] none) none (some d) none [] [] ] false [] []
private def exReg : Registry := [("p.Node", exNode)]

/-- Non-vacuity: a cyclic registry meets the hypothesis of termination, and the check both
accepts and rejects. -/
example : exReg.Ok ∧
    validateRecordFieldDefaults exReg.find? 10
      (exTop (.obj [("next", .obj [("x", .num (.int 2))]), ("x", .num (.int 1))])) = some [] ∧
    validateRecordFieldDefaults exReg.find? 10 (exTop (.obj [])) =
      some [("n", .missingRequired "Node" ["x"])] := by
  refine ⟨?_, rfl, rfl⟩
  intro kt h
  simp only [exReg, List.mem_cons, List.not_mem_nil, or_false] at h
  subst h
  exact ⟨trivial, rfl⟩

/-- Recursive positions are not checked: the inner `next` value is not a `Node`, and the default
is accepted although it does not conform. -/
theorem C13_recursive_positions_unchecked :
    validateRecordFieldDefaults exReg.find? 10
      (exTop (.obj [("next", .str "?"), ("x", .num (.int 1))])) = some [] ∧
    ¬ Conforms exReg.find? (.obj [("next", .str "?"), ("x", .num (.int 1))])
      (.ref "Node" (some "p") [] none) := by
  refine ⟨rfl, ?_⟩
  intro h
  cases h with
  | ref h1 h =>
    have e : exReg.find? (makeFullName "Node" (some "p")) = some exNode := rfl
    rw [e] at h1; cases h1
    cases h with
    | record h1 h2 =>
      have := h1 (.mk "next" (.union [.prim .null, .ref "Node" (some "p") [] none] false) none
        (some .null) none [] []) (by simp) (.str "?") rfl
      simp only [Field.schema] at this
      cases this with
      | union ht h =>
        simp only [List.mem_cons, List.not_mem_nil, or_false] at ht
        rcases ht with rfl | rfl
        · cases h with | prim h => cases h
        · cases h with
          | ref h1 h =>
            rw [e] at h1; cases h1
            cases h

/-- Forward references are not checked: when the type is registered only later, any default is
accepted at declaration time (and nothing checks it afterwards). -/
theorem C13_forward_reference_unchecked (v : Json) :
    validateRecordFieldDefaults (fun _ => none) 10 (exTop v) = some [] := rfl

end Avdl.Props
