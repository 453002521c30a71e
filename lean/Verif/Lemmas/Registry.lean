import Verif.Registry
import Verif.Spec.Default
import Verif.Lemmas.Names
import Verif.Lemmas.Defaults
import Verif.Lemmas.SerFuel
/-! Lemmas on the registry and on reference resolution through it. -/

namespace Avdl

open Spec

theorem Registry.mem_of_find? {r : Registry} {k : String} {t : Schema} (h : r.find? k = some t) :
    (k, t) ∈ r := by
  induction r with
  | nil => simp [Registry.find?] at h
  | cons kt r ih =>
    obtain ⟨k', t'⟩ := kt
    simp only [Registry.find?] at h
    split at h
    · rename_i hk; subst hk; cases h; simp
    · exact List.mem_cons_of_mem _ (ih h)

theorem Registry.find?_append (r : Registry) (k key : String) (t : Schema) :
    (r ++ [(k, t)] : Registry).find? key =
      (r.find? key).or (if k = key then some t else none) := by
  induction r with
  | nil => simp only [List.nil_append, Registry.find?]; split <;> rfl
  | cons kt r ih =>
    obtain ⟨k', t'⟩ := kt
    simp only [List.cons_append, Registry.find?]
    split
    · rfl
    · exact ih

theorem Registry.find?_isSome_iff (r : Registry) (k : String) :
    (r.find? k).isSome = true ↔ k ∈ r.names := by
  induction r with
  | nil => simp [Registry.find?, Registry.names]
  | cons kt r ih =>
    obtain ⟨k', t'⟩ := kt
    simp only [Registry.find?, Registry.names, List.map_cons, List.mem_cons]
    split
    · rename_i h; simp [h]
    · rename_i h
      rw [ih]
      simp [Registry.names, Ne.symm h]

/-- Every entry is a definition of a named type, entered under its own full name. -/
def Registry.Ok (r : Registry) : Prop := ∀ kt ∈ r, kt.2.IsNamed ∧ kt.2.fullName? = some kt.1

/-! ### Termination of reference resolution -/

/-- Fuel that suffices to resolve a schema. -/
def resolveBound (r : Registry) (s : Schema) (V : List String) : Nat :=
  match s with
  | .record n ns .. => s.depth + unknownCount r (makeFullName n ns :: V) * (lookupDepth r + 1)
  | s => s.depth + unknownCount r V * (lookupDepth r + 1)

theorem resolveBound_le (r : Registry) (s : Schema) (V : List String) :
    resolveBound r s V ≤ s.depth + unknownCount r V * (lookupDepth r + 1) := by
  unfold resolveBound
  split
  · apply Nat.add_le_add_left
    apply Nat.mul_le_mul_right
    exact unknownCount_anti r fun x hx => List.mem_cons_of_mem _ hx
  · exact Nat.le_refl _

theorem resolveLoop_total {α β : Type} {f : α → Resolved β} {l : List α}
    (h : ∀ a ∈ l, f a ≠ .timeout) : resolveLoop f l ≠ .timeout := by
  induction l with
  | nil => simp [resolveLoop]
  | cons a as ih =>
    simp only [resolveLoop]
    cases h1 : f a with
    | timeout => exact absurd h1 (h a (by simp))
    | unresolved => simp
    | done b =>
      have := ih fun a ha => h a (List.mem_cons_of_mem _ ha)
      simp only
      cases h2 : resolveLoop f as with
      | timeout => exact absurd h2 this
      | unresolved => simp
      | done bs => simp

theorem resolve_total (r : Registry) (hr : r.Ok) (n : Nat) :
    ∀ s V, resolveBound r s V ≤ n → resolveInner r.find? n s V ≠ .timeout := by
  induction n with
  | zero =>
    intro s V h
    have := Schema.depth_pos s
    unfold resolveBound at h
    split at h <;> omega
  | succ n ih =>
    intro s V hn
    cases s with
    | prim p => simp [resolveInner]
    | annotated p ps => simp [resolveInner]
    | logical p ps => simp [resolveInner]
    | enum nm ns d sy df al ps => simp [resolveInner]
    | fixed nm ns d sz al ps => simp [resolveInner]
    | array i ps =>
      simp only [resolveBound, Schema.depth] at hn
      have := ih i V (Nat.le_trans (resolveBound_le r i V) (by omega))
      simp only [resolveInner]
      cases h : resolveInner r.find? n i V with
      | timeout => exact absurd h this
      | unresolved => simp
      | done => simp
    | map i ps =>
      simp only [resolveBound, Schema.depth] at hn
      have := ih i V (Nat.le_trans (resolveBound_le r i V) (by omega))
      simp only [resolveInner]
      cases h : resolveInner r.find? n i V with
      | timeout => exact absurd h this
      | unresolved => simp
      | done => simp
    | union ts b =>
      simp only [resolveBound, Schema.depth] at hn
      have : resolveLoop (fun t => resolveInner r.find? n t V) ts ≠ .timeout := by
        apply resolveLoop_total
        intro t ht
        have hd := Schema.depth_le_depthL ht
        exact ih t V (Nat.le_trans (resolveBound_le r t V) (by omega))
      simp only [resolveInner]
      cases h : resolveLoop (fun t => resolveInner r.find? n t V) ts with
      | timeout => exact absurd h this
      | unresolved => simp
      | done => simp
    | record nm ns d fs e al ps =>
      simp only [resolveBound, Schema.depth] at hn
      have : resolveLoop (fun f => resolveField f
          (resolveInner r.find? n f.schema (makeFullName nm ns :: V))) fs ≠ .timeout := by
        apply resolveLoop_total
        intro f hf
        have hd := Schema.depth_le_depthF hf
        have := ih f.schema (makeFullName nm ns :: V)
          (Nat.le_trans (resolveBound_le r f.schema _) (by omega))
        cases h : resolveInner r.find? n f.schema (makeFullName nm ns :: V) with
        | timeout => exact absurd h this
        | unresolved => simp [resolveField]
        | done => simp [resolveField]
      simp only [resolveInner]
      cases h : resolveLoop (fun f => resolveField f
          (resolveInner r.find? n f.schema (makeFullName nm ns :: V))) fs with
      | timeout => exact absurd h this
      | unresolved => simp
      | done => simp
    | ref nm ns ps sp =>
      simp only [resolveBound, Schema.depth] at hn
      simp only [resolveInner]
      split
      · simp
      · rename_i hV
        simp only [List.contains_iff_mem] at hV
        cases hres : r.find? (makeFullName nm ns) with
        | none => simp
        | some t =>
          have hmem := Registry.mem_of_find? hres
          obtain ⟨hnamed, hfull⟩ := hr _ hmem
          simp only at hnamed hfull
          simp only
          cases t with
          | enum => cases n with
            | zero => omega
            | succ n => simp [resolveInner]
          | fixed => cases n with
            | zero => omega
            | succ n => simp [resolveInner]
          | record n2 ns2 d2 fs2 e2 al2 ps2 =>
            apply ih
            simp only [Schema.fullName?, Option.some.injEq] at hfull
            have hdt : (Schema.record n2 ns2 d2 fs2 e2 al2 ps2).depth ≤ lookupDepth r :=
              Schema.depth_le_depthL (List.mem_map.mpr ⟨_, hmem, rfl⟩)
            have hlt := unknownCount_lt r hmem
              (x := makeFullName nm ns) (by simp [Schema.fullName?, hfull]) hV
            have h4 := Nat.mul_le_mul_right (lookupDepth r + 1) hlt
            rw [Nat.succ_mul] at h4
            simp only [resolveBound, hfull]
            omega
          | _ => simp [Schema.IsNamed] at hnamed

/-- Extra fuel does not change a `resolveLoop` result. -/
theorem resolveLoop_mono {α β : Type} {f g : α → Resolved β} {l : List α}
    (H : ∀ a ∈ l, f a ≠ .timeout → g a = f a) (h : resolveLoop f l ≠ .timeout) :
    resolveLoop g l = resolveLoop f l := by
  induction l with
  | nil => rfl
  | cons a as ih =>
    simp only [resolveLoop] at h ⊢
    cases h1 : f a with
    | timeout => rw [h1] at h; exact absurd rfl h
    | unresolved => rw [H a (by simp) (by rw [h1]; simp), h1]
    | done b =>
      rw [H a (by simp) (by rw [h1]; simp), h1]
      rw [h1] at h
      simp only at h ⊢
      have : resolveLoop f as ≠ .timeout := by
        intro h2; rw [h2] at h; exact h rfl
      rw [ih (fun a ha => H a (List.mem_cons_of_mem _ ha)) this]

theorem resolve_mono (res : String → Option Schema) {n : Nat} : ∀ {m : Nat}, n ≤ m → ∀ {s V},
    resolveInner res n s V ≠ .timeout → resolveInner res m s V = resolveInner res n s V := by
  induction n with
  | zero => intro m _ s V h; simp [resolveInner] at h
  | succ n ih =>
    intro m hm s V h
    obtain ⟨m, rfl⟩ : ∃ k, m = k + 1 := ⟨m - 1, by omega⟩
    have hnm : n ≤ m := by omega
    cases s with
    | prim p => rfl
    | annotated p ps => rfl
    | logical p ps => rfl
    | enum nm ns d sy df al ps => rfl
    | fixed nm ns d sz al ps => rfl
    | array i ps =>
      simp only [resolveInner] at h ⊢
      have : resolveInner res n i V ≠ .timeout := by intro h2; rw [h2] at h; exact h rfl
      rw [ih hnm this]
    | map i ps =>
      simp only [resolveInner] at h ⊢
      have : resolveInner res n i V ≠ .timeout := by intro h2; rw [h2] at h; exact h rfl
      rw [ih hnm this]
    | union ts b =>
      simp only [resolveInner] at h ⊢
      have : resolveLoop (fun t => resolveInner res n t V) ts ≠ .timeout := by
        intro h2; rw [h2] at h; exact h rfl
      rw [resolveLoop_mono (f := fun t => resolveInner res n t V)
        (fun t _ ht => ih hnm ht) this]
    | record nm ns d fs e al ps =>
      simp only [resolveInner] at h ⊢
      have : resolveLoop (fun f => resolveField f
          (resolveInner res n f.schema (makeFullName nm ns :: V))) fs ≠ .timeout := by
        intro h2; rw [h2] at h; exact h rfl
      rw [resolveLoop_mono (f := fun f => resolveField f
          (resolveInner res n f.schema (makeFullName nm ns :: V))) ?_ this]
      intro f _ hf
      have : resolveInner res n f.schema (makeFullName nm ns :: V) ≠ .timeout := by
        intro h2; rw [h2] at hf; exact hf rfl
      rw [ih hnm this]
    | ref nm ns ps sp =>
      simp only [resolveInner] at h ⊢
      split
      · rfl
      · rename_i hV
        rw [if_neg hV] at h
        cases hres : res (makeFullName nm ns) with
        | none => rfl
        | some t => rw [hres] at h; exact ih hnm h

/-! ### References -/

mutual
theorem mem_unresolvedRefs (known : String → Bool) : ∀ (s : Schema) (x : String) (sp : Option Span),
    (x, sp) ∈ unresolvedRefs known s ↔ RefersTo s x sp ∧ known x = false
  | .ref n ns ps sp', x, sp => by
      simp only [unresolvedRefs]
      constructor
      · intro h
        split at h
        · simp at h
        · rename_i hk
          simp only [List.mem_cons, List.not_mem_nil, or_false, Prod.mk.injEq] at h
          obtain ⟨rfl, rfl⟩ := h
          exact ⟨.ref, by simpa using hk⟩
      · rintro ⟨h, hk⟩
        cases h
        rw [if_neg (by simp [hk])]
        simp
  | .record n ns d fs e al ps, x, sp => by
      simp only [unresolvedRefs]
      rw [mem_unresolvedRefsFields known fs x sp]
      constructor
      · rintro ⟨⟨f, hf, h⟩, hk⟩; exact ⟨.field hf h, hk⟩
      · rintro ⟨h, hk⟩
        cases h with
        | field hf h => exact ⟨⟨_, hf, h⟩, hk⟩
  | .array i ps, x, sp => by
      simp only [unresolvedRefs]
      rw [mem_unresolvedRefs known i x sp]
      exact ⟨fun h => ⟨.items h.1, h.2⟩, fun h => by
        obtain ⟨h, hk⟩ := h; cases h with | items h => exact ⟨h, hk⟩⟩
  | .map i ps, x, sp => by
      simp only [unresolvedRefs]
      rw [mem_unresolvedRefs known i x sp]
      exact ⟨fun h => ⟨.values h.1, h.2⟩, fun h => by
        obtain ⟨h, hk⟩ := h; cases h with | values h => exact ⟨h, hk⟩⟩
  | .union ts b, x, sp => by
      simp only [unresolvedRefs]
      rw [mem_unresolvedRefsList known ts x sp]
      constructor
      · rintro ⟨⟨f, hf, h⟩, hk⟩; exact ⟨.branch hf h, hk⟩
      · rintro ⟨h, hk⟩
        cases h with
        | branch hf h => exact ⟨⟨_, hf, h⟩, hk⟩
  | .prim _, x, sp | .enum .., x, sp | .fixed .., x, sp | .annotated .., x, sp
  | .logical .., x, sp => by
      simp only [unresolvedRefs, List.not_mem_nil, false_iff]
      rintro ⟨h, -⟩
      cases h
theorem mem_unresolvedRefsFields (known : String → Bool) :
    ∀ (fs : List Field) (x : String) (sp : Option Span),
    (x, sp) ∈ unresolvedRefsFields known fs ↔
      (∃ f ∈ fs, RefersTo f.schema x sp) ∧ known x = false
  | [], x, sp => by simp [unresolvedRefsFields]
  | .mk n s d df o al ps :: fs, x, sp => by
      simp only [unresolvedRefsFields, List.mem_append, mem_unresolvedRefs known s x sp,
        mem_unresolvedRefsFields known fs x sp, List.mem_cons, exists_eq_or_imp, Field.schema]
      constructor
      · rintro (h | ⟨h, hk⟩)
        · exact ⟨.inl h.1, h.2⟩
        · exact ⟨.inr h, hk⟩
      · rintro ⟨h | h, hk⟩
        · exact .inl ⟨h, hk⟩
        · exact .inr ⟨h, hk⟩
theorem mem_unresolvedRefsList (known : String → Bool) :
    ∀ (ss : List Schema) (x : String) (sp : Option Span),
    (x, sp) ∈ unresolvedRefsList known ss ↔
      (∃ s ∈ ss, RefersTo s x sp) ∧ known x = false
  | [], x, sp => by simp [unresolvedRefsList]
  | s :: ss, x, sp => by
      simp only [unresolvedRefsList, List.mem_append, mem_unresolvedRefs known s x sp,
        mem_unresolvedRefsList known ss x sp, List.mem_cons, exists_eq_or_imp]
      constructor
      · rintro (h | ⟨h, hk⟩)
        · exact ⟨.inl h.1, h.2⟩
        · exact ⟨.inr h, hk⟩
      · rintro ⟨h | h, hk⟩
        · exact .inl ⟨h, hk⟩
        · exact .inr ⟨h, hk⟩
end

/-! ### When resolution gives up -/

theorem resolveLoop_unresolved {α β : Type} {f : α → Resolved β} {l : List α}
    (h : resolveLoop f l = .unresolved) : ∃ a ∈ l, f a = .unresolved := by
  induction l with
  | nil => simp [resolveLoop] at h
  | cons a as ih =>
    simp only [resolveLoop] at h
    cases h1 : f a with
    | timeout => rw [h1] at h; simp at h
    | unresolved => exact ⟨a, by simp, h1⟩
    | done b =>
      rw [h1] at h
      simp only at h
      cases h2 : resolveLoop f as with
      | timeout => rw [h2] at h; simp at h
      | done bs => rw [h2] at h; simp at h
      | unresolved =>
        obtain ⟨a, ha, h⟩ := ih h2
        exact ⟨a, List.mem_cons_of_mem _ ha, h⟩

theorem Spec.Mentions.mono {res : String → Option Schema} {s t : Schema}
    (H : ∀ x sp, RefersTo s x sp → RefersTo t x sp) {x : String} (h : Mentions res s x) :
    Mentions res t x := by
  cases h with
  | here h => exact .here (H _ _ h)
  | step h1 h2 h3 => exact .step (H _ _ h1) h2 h3

theorem resolve_unresolved (res : String → Option Schema) (n : Nat) : ∀ s V,
    resolveInner res n s V = .unresolved → ∃ x, Mentions res s x ∧ res x = none := by
  induction n with
  | zero => intro s V h; simp [resolveInner] at h
  | succ n ih =>
    intro s V h
    cases s with
    | prim p => simp [resolveInner] at h
    | annotated p ps => simp [resolveInner] at h
    | logical p ps => simp [resolveInner] at h
    | enum nm ns d sy df al ps => simp [resolveInner] at h
    | fixed nm ns d sz al ps => simp [resolveInner] at h
    | array i ps =>
      simp only [resolveInner] at h
      cases h1 : resolveInner res n i V with
      | timeout => rw [h1] at h; simp at h
      | done => rw [h1] at h; simp at h
      | unresolved =>
        obtain ⟨x, hx, hn⟩ := ih i V h1
        exact ⟨x, hx.mono fun _ _ => .items, hn⟩
    | map i ps =>
      simp only [resolveInner] at h
      cases h1 : resolveInner res n i V with
      | timeout => rw [h1] at h; simp at h
      | done => rw [h1] at h; simp at h
      | unresolved =>
        obtain ⟨x, hx, hn⟩ := ih i V h1
        exact ⟨x, hx.mono fun _ _ => .values, hn⟩
    | union ts b =>
      simp only [resolveInner] at h
      cases h1 : resolveLoop (fun t => resolveInner res n t V) ts with
      | timeout => rw [h1] at h; simp at h
      | done => rw [h1] at h; simp at h
      | unresolved =>
        obtain ⟨t, ht, h2⟩ := resolveLoop_unresolved h1
        obtain ⟨x, hx, hn⟩ := ih t V h2
        exact ⟨x, hx.mono fun _ _ => .branch ht, hn⟩
    | record nm ns d fs e al ps =>
      simp only [resolveInner] at h
      cases h1 : resolveLoop (fun f => resolveField f
          (resolveInner res n f.schema (makeFullName nm ns :: V))) fs with
      | timeout => rw [h1] at h; simp at h
      | done => rw [h1] at h; simp at h
      | unresolved =>
        obtain ⟨f, hf, h2⟩ := resolveLoop_unresolved h1
        have h3 : resolveInner res n f.schema (makeFullName nm ns :: V) = .unresolved := by
          cases h4 : resolveInner res n f.schema (makeFullName nm ns :: V) with
          | timeout => rw [h4] at h2; simp [resolveField] at h2
          | done => rw [h4] at h2; simp [resolveField] at h2
          | unresolved => rfl
        obtain ⟨x, hx, hn⟩ := ih _ _ h3
        exact ⟨x, hx.mono fun _ _ => .field hf, hn⟩
    | ref nm ns ps sp =>
      simp only [resolveInner] at h
      split at h
      · simp at h
      · cases h1 : res (makeFullName nm ns) with
        | none => exact ⟨_, .here .ref, h1⟩
        | some t =>
          rw [h1] at h
          obtain ⟨x, hx, hn⟩ := ih t V h
          exact ⟨x, .step .ref h1 hx, hn⟩

end Avdl
