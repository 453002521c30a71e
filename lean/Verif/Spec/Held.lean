import Verif.Schema
/-!
# Specification: JSON values as `serde_json` holds them

Objects are maps ordered by key; integers have 64 bits, signed or unsigned.
-/

namespace Avdl.Spec

mutual
/-- A value the program can hold. -/
def Held : Json → Prop
  | .null => True
  | .bool _ => True
  | .num (.int i) => -(2 ^ 63) ≤ i ∧ i < 2 ^ 64
  | .num (.float ..) => True
  | .str _ => True
  | .arr l => HeldList l
  | .obj m => m.Pairwise (fun a b => a.1 < b.1) ∧ HeldMap m
/-- The same for lists. -/
def HeldList : List Json → Prop
  | [] => True
  | j :: l => Held j ∧ HeldList l
/-- The same for the members of an object. -/
def HeldMap : List (String × Json) → Prop
  | [] => True
  | (_, j) :: m => Held j ∧ HeldMap m
end

end Avdl.Spec
