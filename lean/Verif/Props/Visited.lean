import Verif.Visited
import Verif.Lemmas.CompileOk
/-!
# C13: the mutable set of the check of default values
-/

namespace Avdl.Props
open Spec

theorem resolveLoopM_eq {α β : Type} {f : α → List String → Resolved β × List String}
    {g : α → Resolved β} {V : List String} {l : List α}
    (h : ∀ a ∈ l, (f a V).1 = g a ∧ ∀ b, (f a V).1 = .done b → (f a V).2 = V) :
    (resolveLoopM f l V).1 = resolveLoop g l ∧
      ∀ b, (resolveLoopM f l V).1 = .done b → (resolveLoopM f l V).2 = V := by
  induction l with
  | nil => exact ⟨rfl, fun _ _ => rfl⟩
  | cons a l ih =>
    obtain ⟨i1, i2⟩ := ih fun x hx => h x (List.mem_cons_of_mem _ hx)
    obtain ⟨h1, h2⟩ := h a (List.mem_cons_self ..)
    simp only [resolveLoopM, resolveLoop, ← h1, ← i1]
    generalize f a V = r at h1 h2
    obtain ⟨r, V'⟩ := r
    cases r with
    | timeout => exact ⟨rfl, fun b hb => by cases hb⟩
    | unresolved => exact ⟨rfl, fun b hb => by cases hb⟩
    | done b =>
      have := h2 b rfl
      simp only at this
      subst this
      simp only
      generalize resolveLoopM f l V' = r at i1 i2
      obtain ⟨r, V''⟩ := r
      cases r with
      | timeout => exact ⟨rfl, fun b hb => by cases hb⟩
      | unresolved => exact ⟨rfl, fun b hb => by cases hb⟩
      | done bs => exact ⟨rfl, fun _ _ => i2 bs rfl⟩

/-- With the set as in the code the result is the same, and the set is as before, if definitions do
not contain definitions. -/
theorem resolveInnerM_eq {res : String → Option Schema}
    (hres : ∀ y t, res y = some t → t.flatDef = true ∧ t.fullName? = some y) (n : Nat) :
    ∀ (s : Schema) (V : List String), (s.noDefs = true ∨ ∃ y, y ∉ V ∧ res y = some s) →
      (resolveInnerM res n s V).1 = resolveInner res n s V ∧
        ∀ r, (resolveInnerM res n s V).1 = .done r → (resolveInnerM res n s V).2 = V := by
  induction n with
  | zero => intro s V _; exact ⟨rfl, fun _ _ => rfl⟩
  | succ n ih =>
    intro s V hs
    cases s with
    | prim | annotated | logical | enum | fixed => exact ⟨rfl, fun _ _ => rfl⟩
    | array i ps | map i ps =>
      have hi : i.noDefs = true := by
        rcases hs with hs | ⟨y, _, hs⟩
        · simpa [Schema.noDefs] using hs
        · have := (hres y _ hs).1; simp [Schema.flatDef] at this
      obtain ⟨h1, h2⟩ := ih i V (.inl hi)
      simp only [resolveInnerM, resolveInner, ← h1]
      generalize resolveInnerM res n i V = r at h1 h2
      obtain ⟨r, V'⟩ := r
      cases r with
      | timeout => exact ⟨rfl, fun b hb => by cases hb⟩
      | unresolved => exact ⟨rfl, fun b hb => by cases hb⟩
      | done b => exact ⟨rfl, fun _ _ => h2 b rfl⟩
    | union ts b =>
      have hi : ∀ t ∈ ts, t.noDefs = true := by
        rcases hs with hs | ⟨y, _, hs⟩
        · simpa [Schema.noDefs, Schema.noDefsL_iff] using hs
        · have := (hres y _ hs).1; simp [Schema.flatDef] at this
      obtain ⟨h1, h2⟩ := resolveLoopM_eq (f := resolveInnerM res n)
        (g := fun t => resolveInner res n t V) (V := V) fun t ht => ih t V (.inl (hi t ht))
      simp only [resolveInnerM, resolveInner, ← h1]
      generalize resolveLoopM (resolveInnerM res n) ts V = r at h1 h2
      obtain ⟨r, V'⟩ := r
      cases r with
      | timeout => exact ⟨rfl, fun b hb => by cases hb⟩
      | unresolved => exact ⟨rfl, fun b hb => by cases hb⟩
      | done b => exact ⟨rfl, fun _ _ => h2 b rfl⟩
    | record nm ns d fs e al ps =>
      rcases hs with hs | ⟨y, hy, hs⟩
      · simp [Schema.noDefs] at hs
      obtain ⟨hfl, hfull⟩ := hres y _ hs
      simp only [Schema.fullName?, Option.some.injEq] at hfull
      simp only [Schema.flatDef, Schema.noDefsF_iff] at hfl
      have hins : V.insert y = y :: V := by simp [hy]
      have hfil : (y :: V).filter (fun x => x != y) = V := by
        rw [List.filter_cons_of_neg (by simp), List.filter_eq_self]
        intro x hx
        simp only [bne_iff_ne, ne_eq]
        rintro rfl
        exact hy hx
      obtain ⟨h1, h2⟩ := resolveLoopM_eq
        (f := fun f v => (resolveField f (resolveInnerM res n f.schema v).1,
          (resolveInnerM res n f.schema v).2))
        (g := fun f => resolveField f (resolveInner res n f.schema (y :: V))) (V := y :: V)
        (l := fs) (fun f hf => by
          obtain ⟨g1, g2⟩ := ih f.schema (y :: V) (.inl (hfl f hf))
          refine ⟨by rw [← g1], fun b hb => ?_⟩
          simp only at hb
          cases hr : (resolveInnerM res n f.schema (y :: V)).1 with
          | timeout => rw [hr] at hb; cases hb
          | unresolved => rw [hr] at hb; cases hb
          | done r => exact g2 r hr)
      simp only [resolveInnerM, resolveInner, hfull, hins, ← h1]
      generalize resolveLoopM _ fs (y :: V) = r at h1 h2
      obtain ⟨r, V'⟩ := r
      cases r with
      | timeout => exact ⟨rfl, fun b hb => by cases hb⟩
      | unresolved => exact ⟨rfl, fun b hb => by cases hb⟩
      | done b =>
        refine ⟨rfl, fun _ _ => ?_⟩
        have := h2 b rfl
        simp only at this ⊢
        rw [this, hfil]
    | ref nm ns ps sp =>
      simp only [resolveInnerM, resolveInner]
      split
      · exact ⟨rfl, fun _ _ => rfl⟩
      · rename_i hV
        simp only [List.contains_iff_mem] at hV
        cases hr : res (makeFullName nm ns) with
        | none => exact ⟨rfl, fun b hb => by cases hb⟩
        | some t => exact ih t V (.inr ⟨_, hV, hr⟩)

/-- **C13, the mutable set.**  For every type the compiler checks (the registry holding types without
definitions inside, as it always does: `C13_registered_flat`) the check with the mutable set of
the code finds the same errors. -/
theorem C13_mutable_set {res : String → Option Schema}
    (hres : ∀ y t, res y = some t → t.flatDef = true ∧ t.fullName? = some y) (n : Nat) {s : Schema}
    (hs : s.flatDef = true) :
    validateRecordFieldDefaultsM res n s = validateRecordFieldDefaults res n s := by
  cases s with
  | record nm ns d fs e al ps =>
    simp only [Schema.flatDef, Schema.noDefsF_iff] at hs
    show validateRecordFieldDefaultsM.go res n fs = validateRecordFieldDefaults.go res n fs
    induction fs with
    | nil => rfl
    | cons f fs ih =>
      have ih := ih fun g hg => hs g (List.mem_cons_of_mem _ hg)
      simp only [validateRecordFieldDefaultsM.go, validateRecordFieldDefaults.go, ih,
        (resolveInnerM_eq hres n f.schema [] (.inl (hs f (List.mem_cons_self ..)))).1]
      cases f.default with
      | none => rfl
      | some v =>
        simp only
        generalize resolveInner res n f.schema [] = r
        cases r with
        | timeout | unresolved => rfl
        | done r => simp only; cases validateDefault v r <;> rfl
  | _ => rfl

/-- **C13, registered types.**  The types declared or imported in a compilation have no definitions
inside, so the registry is always as `C13_mutable_set` needs it. -/
theorem C13_registered_flat [CharTables] [FloatTables] [CaseTables] {w : World} {dirs : List Path}
    {dir : Path} {seen : List Path} {text name : String} {file : IdlFile} {decls : List DeclItem}
    {ws : List Warning} {es : List Event} {e : Ending}
    (h1 : parseIdl w text name = .ok (file, decls, ws)) (h2 : Trace w dirs dir seen decls es e) :
    (∀ ev ∈ es, ∀ t ∈ ev.types, t.flatDef = true) ∧
    ∀ y t, (registerAll (es.flatMap Event.types)).find? y = some t →
      t.flatDef = true ∧ t.fullName? = some y := by
  have hfl : ∀ ev ∈ es, ∀ t ∈ ev.types, t.flatDef = true :=
    fun ev hev t ht => ((h2.out (parseIdl_out h1).decls ev hev).types t ht).2
  refine ⟨hfl, registerAll_res fun t ht => ?_⟩
  obtain ⟨ev, hev, ht⟩ := List.mem_flatMap.mp ht
  exact hfl ev hev t ht

/-- A record that contains itself, by name: the hypotheses hold, and the check finds the bad value
behind the recursion. -/
example : let node : Schema := (.record "N" none none
      [.mk "x" (.prim .int) none none none [] [],
       .mk "n" (.union [.prim .null, .ref "N" none [] none] true) none (some .null) none [] [],
       .mk "m" (.ref "N" none [] none) none (some (.obj [("x", .str "a")])) none [] []] false [] [])
    node.flatDef = true ∧
    (validateRecordFieldDefaultsM (fun y => if y = "N" then some node else none) 9 node).map
      (·.map Prod.fst) = some ["m"] := by decide +kernel

/-- For definitions inside definitions the set matters: the record `A` visited twice is removed too
early, and a reference to it that follows is resolved again. -/
example : let inner : Schema := .record "A" none none [] false [] []
    let outer : Schema := (.record "A" none none
      [.mk "x" inner none none none [] [], .mk "y" (.ref "A" none [] none) none none none [] []]
      false [] [])
    outer.flatDef = false ∧
    (match (resolveInnerM (fun _ => none) 9 outer []).1, resolveInner (fun _ => none) 9 outer [] with
      | .unresolved, .done _ => true
      | _, _ => false) = true := by decide +kernel

end Avdl.Props
