import Verif.Props.SourceSpans
/-!
# Undefined names and the order of a hash map

For C10 and C47: the messages of a protocol are kept in a hash map, so that their order is any.  The
undefined names do not depend on it, the places they are reported at do.
-/

namespace Avdl.Props
open Spec

theorem fileRefersTo_messages {p q : Protocol} (h : ∀ nm ∈ p.messages, nm ∈ q.messages) {x : String}
    (hx : FileRefersTo (.protocol p) x) : FileRefersTo (.protocol q) x := by
  cases hx with
  | response hm hr => exact .response (h _ hm) hr
  | parameter hm hf hr => exact .parameter (h _ hm) hf hr
  | error hm he hs hr => exact .error (h _ hm) he hs hr

/-- **C10, any order.**  The undefined names are the same in whatever order the messages are. -/
theorem C10_any_order {p : Protocol} {ms : List (String × Message)} (h : p.messages.Perm ms)
    (r : Registry) :
    ((undefinedNames (.protocol p) r).map Prod.fst).Perm
      ((undefinedNames (.protocol { p with messages := ms }) r).map Prod.fst) := by
  obtain ⟨d1, m1, -⟩ := C10_undefined_exactly (.protocol p) r
  obtain ⟨d2, m2, -⟩ := C10_undefined_exactly (.protocol { p with messages := ms }) r
  refine (List.perm_ext_iff_of_nodup d1 d2).mpr fun x => ?_
  rw [m1, m2]
  have : FileRefersTo (.protocol p) x ↔ FileRefersTo (.protocol { p with messages := ms }) x := by
    exact ⟨fileRefersTo_messages fun _ hm => h.mem_iff.mp hm,
      fileRefersTo_messages fun _ hm => h.mem_iff.mpr hm⟩
  rw [this]

/-- A message that returns `X`, written at an offset. -/
def exReturnsAt (offset : Nat) : Message :=
  ⟨none, [], [], .ref "X" none [] (some ⟨offset, 1, "a"⟩), none, false⟩

/-- **C47, the order matters.**  The place a name is reported at depends on the order of the
messages in the hash map, if several refer to the name. -/
theorem C47_fails_hash_order : ∃ (p : Protocol) (ms : List (String × Message)) (s s' : Span),
    p.messages.Perm ms ∧ s ≠ s' ∧ undefinedNames (.protocol p) [] = [("X", some s)] ∧
    undefinedNames (.protocol { p with messages := ms }) [] = [("X", some s')] :=
  ⟨⟨"P", none, none, [], [], [("f", exReturnsAt 10), ("g", exReturnsAt 20)]⟩,
    [("g", exReturnsAt 20), ("f", exReturnsAt 10)], ⟨10, 1, "a"⟩, ⟨20, 1, "a"⟩,
    .swap .., by decide, by decide +kernel, by decide +kernel⟩

/-- The sort of the undefined names puts those without a position before those in a file with a
name, and not behind them. -/
theorem C47_unplaced_sort_first {x y : String} {s : Span} (h : "" < s.file) :
    spanLe (x, none) (y, some s) = true ∧ spanLe (y, some s) (x, none) = false := by
  have h1 : ¬ s.file < "" := fun h' => absurd (String.lt_trans h h') (String.lt_irrefl _)
  have h2 : s.file ≠ "" := fun e => String.lt_irrefl _ (e ▸ h)
  constructor
  · simp [spanLe, spanKey, h]
  · simp [spanLe, spanKey, h1, h2]

example : "" < "a.avdl" := by decide

end Avdl.Props
