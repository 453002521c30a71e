import Verif.Spec.Hoist
/-!
# Lemmas about hoisting nested definitions
-/

namespace Avdl
open Spec

theorem mem_definitionsF {fs : List Field} {t : Schema} :
    t ∈ definitionsF fs ↔ ∃ f ∈ fs, t ∈ definitions f.schema := by
  induction fs with
  | nil => simp [definitionsF]
  | cons f fs ih => cases f; simp [definitionsF, ih, Field.schema]

theorem mem_definitionsL {ss : List Schema} {t : Schema} :
    t ∈ definitionsL ss ↔ ∃ s ∈ ss, t ∈ definitions s := by
  induction ss with
  | nil => simp [definitionsL]
  | cons s ss ih => simp [definitionsL, ih]

theorem mem_definitions_of {s t : Schema} (h : Defines s t) : t ∈ definitions s := by
  induction h with
  | @here s h => cases s <;> simp_all [Schema.IsNamed, definitions]
  | field hf _ ih => simp [definitions, mem_definitionsF]; exact Or.inl ⟨_, hf, ih⟩
  | items _ ih => simpa [definitions] using ih
  | values _ ih => simpa [definitions] using ih
  | branch hs _ ih => simp [definitions, mem_definitionsL]; exact ⟨_, hs, ih⟩

mutual
theorem defines_of_mem : (s : Schema) → {t : Schema} → t ∈ definitions s → Defines s t
  | .record n ns d fs e al ps, t, h => by
      simp only [definitions, List.mem_append, List.mem_singleton] at h
      rcases h with h | rfl
      · obtain ⟨f, hf, hd⟩ := defines_of_memF fs h
        exact .field hf hd
      · exact .here trivial
  | .enum .., t, h => by
      simp only [definitions, List.mem_singleton] at h
      subst h; exact .here trivial
  | .fixed .., t, h => by
      simp only [definitions, List.mem_singleton] at h
      subst h; exact .here trivial
  | .array i _, t, h => .items (defines_of_mem i (by simpa [definitions] using h))
  | .map i _, t, h => .values (defines_of_mem i (by simpa [definitions] using h))
  | .union ts _, t, h => by
      obtain ⟨s, hs, hd⟩ := defines_of_memL ts (by simpa [definitions] using h)
      exact .branch hs hd
  | .prim _, _, h | .annotated .., _, h | .logical .., _, h | .ref .., _, h => by
      simp [definitions] at h
theorem defines_of_memF : (fs : List Field) → {t : Schema} → t ∈ definitionsF fs →
    ∃ f ∈ fs, Defines f.schema t
  | [], _, h => by simp [definitionsF] at h
  | .mk n s d df o al ps :: fs, t, h => by
      simp only [definitionsF, List.mem_append] at h
      rcases h with h | h
      · exact ⟨.mk n s d df o al ps, by simp, defines_of_mem s h⟩
      · obtain ⟨f, hf, hd⟩ := defines_of_memF fs h
        exact ⟨f, by simp [hf], hd⟩
theorem defines_of_memL : (ss : List Schema) → {t : Schema} → t ∈ definitionsL ss →
    ∃ s ∈ ss, Defines s t
  | [], _, h => by simp [definitionsL] at h
  | s :: ss, t, h => by
      simp only [definitionsL, List.mem_append] at h
      rcases h with h | h
      · exact ⟨s, by simp, defines_of_mem s h⟩
      · obtain ⟨f, hf, hd⟩ := defines_of_memL ss h
        exact ⟨f, by simp [hf], hd⟩
end

theorem mem_definitions {s t : Schema} : t ∈ definitions s ↔ Defines s t :=
  ⟨defines_of_mem s, mem_definitions_of⟩

theorem outlineList_eq (ss : List Schema) : outlineList ss = ss.map outline := by
  induction ss with
  | nil => rfl
  | cons s ss ih => simp [outlineList, ih]

mutual
theorem flattenInner_eq : (s : Schema) →
    flattenInner s = ((definitions s).map outlineDef, outline s)
  | .record n ns d fs e al ps => by
      simp [flattenInner, flattenFields_eq fs, definitions, outline, outlineDef]
  | .enum .. => by simp [flattenInner, definitions, outline, outlineDef]
  | .fixed .. => by simp [flattenInner, definitions, outline, outlineDef]
  | .array i _ => by simp [flattenInner, flattenInner_eq i, definitions, outline]
  | .map i _ => by simp [flattenInner, flattenInner_eq i, definitions, outline]
  | .union ts _ => by simp [flattenInner, flattenList_eq ts, definitions, outline, outlineList_eq]
  | .prim _ | .annotated .. | .logical .. | .ref .. => by
      simp [flattenInner, definitions, outline]
theorem flattenFields_eq : (fs : List Field) →
    flattenFields fs = ((definitionsF fs).map outlineDef,
      fs.map fun f => withType f (outline f.schema))
  | [] => by simp [flattenFields, definitionsF]
  | .mk n s d df o al ps :: fs => by
      simp [flattenFields, flattenInner_eq s, flattenFields_eq fs, definitionsF, withType,
        Field.name, Field.schema, Field.doc, Field.default, Field.order, Field.aliases, Field.props]
theorem flattenList_eq : (ss : List Schema) →
    flattenList ss = ((definitionsL ss).map outlineDef, ss.map outline)
  | [] => by simp [flattenList, definitionsL]
  | s :: ss => by simp [flattenList, flattenInner_eq s, flattenList_eq ss, definitionsL]
end

/-! ### Inner definitions first -/

/-- Each element comes after everything defined inside it. -/
def InnerFirst (l : List Schema) : Prop :=
  ∀ l1 u l2, l = l1 ++ u :: l2 → ∀ t, Defines u t → t = u ∨ t ∈ l1

theorem InnerFirst.append {a b : List Schema} (ha : InnerFirst a) (hb : InnerFirst b) :
    InnerFirst (a ++ b) := by
  intro l1 u l2 h t ht
  rcases List.append_eq_append_iff.1 h with ⟨c, h1, h2⟩ | ⟨c, h1, h2⟩
  · rcases hb c u l2 h2 t ht with rfl | h'
    · exact .inl rfl
    · right; rw [h1]; simp [h']
  · cases c with
    | nil =>
      rcases hb [] u l2 (by simpa using h2.symm) t ht with rfl | h'
      · exact .inl rfl
      · simp at h'
    | cons x c =>
      simp only [List.cons_append, List.cons.injEq] at h2
      obtain ⟨rfl, h2⟩ := h2
      exact ha l1 u c h1 t ht

theorem innerFirst_nil : InnerFirst [] := by
  intro l1 u l2 h; simp at h

theorem innerFirst_snoc {a : List Schema} {s : Schema} (ha : InnerFirst a)
    (hs : ∀ t, Defines s t → t = s ∨ t ∈ a) : InnerFirst (a ++ [s]) := by
  intro l1 u l2 h t ht
  rcases List.append_eq_append_iff.1 h with ⟨c, h1, h2⟩ | ⟨c, h1, h2⟩
  · cases c with
    | nil =>
      simp only [List.nil_append, List.cons.injEq] at h2
      obtain ⟨rfl, -⟩ := h2
      rcases hs t ht with h' | h'
      · exact .inl h'
      · right; rw [h1]; simp [h']
    | cons x c => simp at h2
  · cases c with
    | nil =>
      simp only [List.nil_append, List.cons.injEq] at h2
      obtain ⟨rfl, -⟩ := h2
      rcases hs t ht with h' | h'
      · exact .inl h'
      · right; simpa [h1] using h'
    | cons x c =>
      simp only [List.cons_append, List.cons.injEq] at h2
      obtain ⟨rfl, h2⟩ := h2
      exact ha l1 u c h1 t ht

mutual
theorem definitions_innerFirst : (s : Schema) → InnerFirst (definitions s)
  | .record n ns d fs e al ps => by
      simp only [definitions]
      refine innerFirst_snoc (definitionsF_innerFirst fs) ?_
      intro t ht
      have := mem_definitions.2 ht
      simp only [definitions, List.mem_append, List.mem_singleton] at this
      exact this.symm
  | .enum .. => by
      simp only [definitions]
      refine innerFirst_snoc (a := []) innerFirst_nil ?_
      intro t ht; have := mem_definitions.2 ht; simpa [definitions] using this
  | .fixed .. => by
      simp only [definitions]
      refine innerFirst_snoc (a := []) innerFirst_nil ?_
      intro t ht; have := mem_definitions.2 ht; simpa [definitions] using this
  | .array i _ => by simpa only [definitions] using definitions_innerFirst i
  | .map i _ => by simpa only [definitions] using definitions_innerFirst i
  | .union ts _ => by simpa only [definitions] using definitionsL_innerFirst ts
  | .prim _ | .annotated .. | .logical .. | .ref .. => by
      simpa only [definitions] using innerFirst_nil
theorem definitionsF_innerFirst : (fs : List Field) → InnerFirst (definitionsF fs)
  | [] => by simpa only [definitionsF] using innerFirst_nil
  | .mk n s d df o al ps :: fs => by
      simp only [definitionsF]
      exact (definitions_innerFirst s).append (definitionsF_innerFirst fs)
theorem definitionsL_innerFirst : (ss : List Schema) → InnerFirst (definitionsL ss)
  | [] => by simpa only [definitionsL] using innerFirst_nil
  | s :: ss => by
      simp only [definitionsL]
      exact (definitions_innerFirst s).append (definitionsL_innerFirst ss)
end

/-! ### No nested definitions remain -/

mutual
theorem noDefs_outline : (s : Schema) → (outline s).noDefs = true
  | .record .. | .enum .. | .fixed .. => by simp [outline, Schema.noDefs]
  | .array i _ => by simp [outline, Schema.noDefs, noDefs_outline i]
  | .map i _ => by simp [outline, Schema.noDefs, noDefs_outline i]
  | .union ts _ => by simp [outline, Schema.noDefs, noDefsL_outline ts]
  | .prim _ | .annotated .. | .logical .. | .ref .. => by simp [outline, Schema.noDefs]
theorem noDefsL_outline : (ss : List Schema) → Schema.noDefsL (outlineList ss) = true
  | [] => by simp [outlineList, Schema.noDefsL]
  | s :: ss => by simp [outlineList, Schema.noDefsL, noDefs_outline s, noDefsL_outline ss]
end

theorem flatDef_outlineDef {s : Schema} (h : s.IsNamed) : (outlineDef s).flatDef = true := by
  cases s with
  | record n ns d fs e al ps =>
    simp only [outlineDef, Schema.flatDef, Schema.noDefsF_iff, List.mem_map]
    rintro f ⟨g, -, rfl⟩
    exact noDefs_outline _
  | enum | fixed => rfl
  | _ => cases h

theorem Spec.Defines.isNamed {s t : Schema} (h : Defines s t) : t.IsNamed := by
  induction h with
  | here h => exact h
  | _ => assumption

/-! ### Nothing is lost -/

mutual
theorem expands_outline (table : List Schema) : (s : Schema) →
    (∀ t, Defines s t → outlineDef t ∈ table) → Expands table (outline s) s
  | .record n ns d fs e al ps, h => by
      have h0 := h _ (.here trivial)
      simp only [outlineDef] at h0
      refine .record h0 (by simp) ?_ ?_
      · intro k f f' hf hf'
        simp only [List.getElem?_map, hf', Option.map_some, Option.some.injEq] at hf
        subst hf; cases f'; rfl
      · intro k f f' hf hf'
        simp only [List.getElem?_map, hf', Option.map_some, Option.some.injEq] at hf
        subst hf
        exact expandsF_outline table fs
          (fun g hg t ht => h t (.field hg ht)) f' (List.mem_of_getElem? hf')
  | .enum .., h => .enum (h _ (.here trivial))
  | .fixed .., h => .fixed (h _ (.here trivial))
  | .array i _, h => .array (expands_outline table i fun t ht => h t (.items ht))
  | .map i _, h => .map (expands_outline table i fun t ht => h t (.values ht))
  | .union ts _, h => by
      simp only [outline, outlineList_eq]
      refine .union (by simp) ?_
      intro k s s' hs hs'
      simp only [List.getElem?_map, hs', Option.map_some, Option.some.injEq] at hs
      subst hs
      exact expandsL_outline table ts
        (fun g hg t ht => h t (.branch hg ht)) s' (List.mem_of_getElem? hs')
  | .prim _, _ => .prim
  | .annotated .., _ => .annotated
  | .logical .., _ => .logical
  | .ref .., _ => .ref
theorem expandsF_outline (table : List Schema) : (fs : List Field) →
    (∀ f ∈ fs, ∀ t, Defines f.schema t → outlineDef t ∈ table) →
    ∀ f ∈ fs, Expands table (outline f.schema) f.schema
  | [], _, _, hf => by simp at hf
  | .mk n s d df o al ps :: fs, h, f, hf => by
      rcases List.mem_cons.1 hf with hf | hf
      · rw [hf]; exact expands_outline table s (h (.mk n s d df o al ps) (by simp))
      · exact expandsF_outline table fs (fun g hg => h g (by simp [hg])) f hf
theorem expandsL_outline (table : List Schema) : (ss : List Schema) →
    (∀ s ∈ ss, ∀ t, Defines s t → outlineDef t ∈ table) →
    ∀ s ∈ ss, Expands table (outline s) s
  | [], _, _, hf => by simp at hf
  | s :: ss, h, x, hx => by
      rcases List.mem_cons.1 hx with hx | hx
      · rw [hx]; exact expands_outline table s (h s (by simp))
      · exact expandsL_outline table ss (fun g hg => h g (by simp [hg])) x hx
end

end Avdl
