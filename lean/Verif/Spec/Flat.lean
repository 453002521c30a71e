import Verif.Schema
import Verif.Spec.WellFormed
/-!
# Flat type tables

Every registered type is a single definition: no named type is defined inline inside another
one (all uses are references).
-/

namespace Avdl

mutual
/-- The schema contains no definition of a named type. -/
def Schema.noDefs : Schema → Bool
  | .record .. | .enum .. | .fixed .. => false
  | .array i _ => i.noDefs
  | .map i _ => i.noDefs
  | .union ts _ => Schema.noDefsL ts
  | .prim _ | .annotated .. | .logical .. | .ref .. => true
def Schema.noDefsF : List Field → Bool
  | [] => true
  | .mk _ s _ _ _ _ _ :: fs => s.noDefs && Schema.noDefsF fs
def Schema.noDefsL : List Schema → Bool
  | [] => true
  | s :: ss => s.noDefs && Schema.noDefsL ss
end

/-- A definition of a named type without further definitions inside. -/
def Schema.flatDef : Schema → Bool
  | .record _ _ _ fs _ _ _ => Schema.noDefsF fs
  | .enum .. | .fixed .. => true
  | _ => false

theorem Schema.noDefsF_iff (fs : List Field) :
    Schema.noDefsF fs = true ↔ ∀ f ∈ fs, f.schema.noDefs = true := by
  induction fs with
  | nil => simp [Schema.noDefsF]
  | cons f fs ih => cases f; simp [Schema.noDefsF, ih, Field.schema]

theorem Schema.noDefsL_iff (ss : List Schema) :
    Schema.noDefsL ss = true ↔ ∀ s ∈ ss, s.noDefs = true := by
  induction ss with
  | nil => simp [Schema.noDefsL]
  | cons f fs ih => simp [Schema.noDefsL, ih]

theorem Schema.isNamed_of_flatDef {s : Schema} (h : s.flatDef = true) : s.IsNamed := by
  cases s <;> simp_all [Schema.flatDef, Schema.IsNamed]

end Avdl
