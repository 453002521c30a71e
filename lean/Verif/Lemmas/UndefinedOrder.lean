import Verif.Lemmas.CompileFacts
import Verif.Diagnostics
import Verif.Props.Suggest
/-!
# The order of undefined names and their diagnostic
-/

namespace Avdl

theorem spanLe_iff {a b : String × Option Span} : spanLe a b = true ↔
    (spanKey a.2).1 < (spanKey b.2).1 ∨
      ((spanKey a.2).1 = (spanKey b.2).1 ∧ (spanKey a.2).2 ≤ (spanKey b.2).2) := by
  simp [spanLe]

theorem spanLe_total (a b : String × Option Span) : spanLe a b = true ∨ spanLe b a = true := by
  rw [spanLe_iff, spanLe_iff]
  rcases Decidable.em ((spanKey a.2).1 < (spanKey b.2).1) with h | h
  · exact .inl (.inl h)
  · rcases Decidable.em ((spanKey b.2).1 < (spanKey a.2).1) with h' | h'
    · exact .inr (.inl h')
    · have e := String.le_antisymm (String.not_lt.mp h') (String.not_lt.mp h)
      rcases Nat.le_total (spanKey a.2).2 (spanKey b.2).2 with hn | hn
      · exact .inl (.inr ⟨e, hn⟩)
      · exact .inr (.inr ⟨e.symm, hn⟩)

theorem spanLe_trans {a b c : String × Option Span} (h : spanLe a b = true)
    (h' : spanLe b c = true) : spanLe a c = true := by
  rw [spanLe_iff] at h h' ⊢
  rcases h with h | ⟨h, hn⟩
  · rcases h' with h' | ⟨h', _⟩
    · exact .inl (String.lt_trans h h')
    · exact .inl (h' ▸ h)
  · rcases h' with h' | ⟨h', hn'⟩
    · exact .inl (h ▸ h')
    · exact .inr ⟨h.trans h', Nat.le_trans hn hn'⟩

theorem sortInsert_mem {α : Type} {le : α → α → Bool} {a x : α} {l : List α} :
    x ∈ sortInsert le a l ↔ x = a ∨ x ∈ l := by
  rw [(sortInsert_perm le a l).mem_iff, List.mem_cons]

theorem sortInsert_sorted {a : String × Option Span} {l : List (String × Option Span)}
    (h : l.Pairwise fun x y => spanLe x y = true) :
    (sortInsert spanLe a l).Pairwise fun x y => spanLe x y = true := by
  induction l with
  | nil => exact List.pairwise_cons.mpr ⟨fun _ hx => absurd hx List.not_mem_nil, .nil⟩
  | cons b l ih =>
    obtain ⟨hb, hl⟩ := List.pairwise_cons.mp h
    rw [sortInsert]
    split
    · rename_i hab
      refine List.pairwise_cons.mpr ⟨fun x hx => ?_, h⟩
      rcases List.mem_cons.mp hx with rfl | hx
      · exact hab
      · exact spanLe_trans hab (hb x hx)
    · rename_i hab
      refine List.pairwise_cons.mpr ⟨fun x hx => ?_, ih hl⟩
      rcases sortInsert_mem.mp hx with rfl | hx
      · exact (spanLe_total x b).resolve_left hab
      · exact hb x hx

theorem stableSort_sorted (l : List (String × Option Span)) :
    (stableSort spanLe l).Pairwise fun x y => spanLe x y = true := by
  induction l with
  | nil => exact .nil
  | cons a l ih => exact sortInsert_sorted ih

/-- Which entry of a name is kept. -/
theorem dedupNames_first (l : List (String × Option Span)) : ∀ seen, ∀ x,
    x ∈ dedupNames seen l ↔ x.1 ∉ seen ∧ l.find? (fun y => y.1 == x.1) = some x := by
  induction l with
  | nil => intro seen x; simp [dedupNames]
  | cons a l ih =>
    intro seen x
    simp only [dedupNames]
    split
    · rename_i hs
      have hs : a.1 ∈ seen := by simpa using hs
      rw [ih]
      refine and_congr_right fun hx => ?_
      have : (a.1 == x.1) = false := by
        rw [beq_eq_false_iff_ne]; rintro e; exact hx (e ▸ hs)
      rw [List.find?_cons, this]
    · rename_i hs
      have hs : a.1 ∉ seen := by simpa using hs
      rw [List.mem_cons, ih, List.find?_cons]
      by_cases e : a.1 = x.1
      · rw [beq_iff_eq.mpr e]
        constructor
        · rintro (rfl | ⟨h, _⟩)
          · exact ⟨hs, rfl⟩
          · exact absurd (e ▸ List.mem_cons_self ..) h
        · rintro ⟨_, h⟩
          injection h with h
          exact .inl h.symm
      · have e' : (a.1 == x.1) = false := beq_eq_false_iff_ne.mpr e
        rw [e']
        constructor
        · rintro (rfl | ⟨h, h'⟩)
          · exact absurd rfl e
          · exact ⟨fun hx => h (List.mem_cons_of_mem _ hx), h'⟩
        · rintro ⟨h, h'⟩
          refine .inr ⟨fun hx => ?_, h'⟩
          rcases List.mem_cons.mp hx with hx | hx
          · exact e hx.symm
          · exact h hx

/-! ## The diagnostic -/

theorem withSpan_append (xs ys : List (String × Option Span)) :
    withSpan (xs ++ ys) = withSpan xs ++ withSpan ys := List.filterMap_append ..

theorem withoutSpan_append (xs ys : List (String × Option Span)) :
    withoutSpan (xs ++ ys) = withoutSpan xs ++ withoutSpan ys := by
  simp [withoutSpan]

theorem withSpan_placed {xs : List (String × Option Span)} (h : ∀ x ∈ xs, x.2.isSome = true) :
    (withSpan xs).map (fun x => (x.1, some x.2)) = xs ∧ withoutSpan xs = [] := by
  induction xs with
  | nil => exact ⟨rfl, rfl⟩
  | cons a xs ih =>
    obtain ⟨n, sp⟩ := a
    have ha := h _ (List.mem_cons_self ..)
    cases sp with
    | none => cases ha
    | some s =>
      obtain ⟨h1, h2⟩ := ih fun x hx => h x (List.mem_cons_of_mem _ hx)
      exact ⟨congrArg ((n, some s) :: ·) h1, h2⟩

theorem withSpan_unplaced {xs : List (String × Option Span)} (h : ∀ x ∈ xs, x.2 = none) :
    withSpan xs = [] ∧ withoutSpan xs = xs.map Prod.fst := by
  induction xs with
  | nil => exact ⟨rfl, rfl⟩
  | cons a xs ih =>
    obtain ⟨n, sp⟩ := a
    have ha : sp = none := h _ (List.mem_cons_self ..)
    subst ha
    obtain ⟨h1, h2⟩ := ih fun x hx => h x (List.mem_cons_of_mem _ hx)
    exact ⟨h1, congrArg (n :: ·) h2⟩

theorem placedNote_total (registered : List String) (n : String) (s : Span) : ∃ h,
    suggestSimilarName n registered = some h ∧
      placedNote registered n s = some ⟨s, [n], none, h.map .hint⟩ := by
  obtain ⟨r, hr, _⟩ := Props.C32_exists n registered
  exact ⟨r, hr, by simp [placedNote, hr]⟩

theorem placedNotes_total (registered : List String) (xs : List (String × Span)) :
    ∃ ns, placedNotes registered xs = some ns ∧
      ns.map (fun n => (n.names, n.span)) = xs.map (fun x => ([x.1], x.2)) ∧
      ∀ n ∈ ns, n.label = none ∧ ∃ x h, n.names = [x] ∧ suggestSimilarName x registered = some h ∧
        n.help = h.map .hint := by
  induction xs with
  | nil => exact ⟨[], rfl, rfl, fun n hn => absurd hn List.not_mem_nil⟩
  | cons a xs ih =>
    obtain ⟨n, s⟩ := a
    obtain ⟨h, h1, h2⟩ := placedNote_total registered n s
    obtain ⟨ns, g1, g2, g3⟩ := ih
    refine ⟨⟨s, [n], none, h.map .hint⟩ :: ns, ?_, ?_, ?_⟩
    · simp only [placedNotes, h2, g1]; rfl
    · simp [g2]
    · intro m hm
      rcases List.mem_cons.mp hm with rfl | hm
      · exact ⟨rfl, n, h, rfl, h1, rfl⟩
      · exact g3 m hm

theorem importNotes_total (registered : List String) {path : Path} {s : Span}
    {imports : List (Path × Option Span)} (sourceName : String) (xs : List String) :
    importNotes registered ((path, some s) :: imports) sourceName xs =
      some (xs.map fun x => ⟨s, [x], some (.referencedIn x path),
        some (.importedFiles (path :: imports.map Prod.fst))⟩) := by
  induction xs with
  | nil => rfl
  | cons a xs ih => simp only [importNotes, ih]; rfl

end Avdl
