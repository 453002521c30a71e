import Verif.Schema
/-!
# Specification: logical types

The logical types known to the tool and their base types, written as in the Avro specification,
and what it is for a JSON value to be a natural number.
-/

namespace Avdl.Spec

/-- The table of logical types: name and base type. -/
def logicalBases : List (String × Prim) :=
  [("date", .int), ("time-millis", .int), ("time-micros", .long), ("timestamp-millis", .long),
   ("timestamp-micros", .long), ("local-timestamp-millis", .long),
   ("local-timestamp-micros", .long), ("uuid", .string), ("decimal", .bytes)]

/-- The JSON value is a number, and the number is the natural number `n`.  (A float is
`±m·2^e`.) -/
def IsNat (n : Nat) : Json → Prop
  | .num (.int i) => i = n
  | .num (.float neg m e) =>
      if neg then m = 0 ∧ n = 0
      else (0 ≤ e ∧ m * 2 ^ e.toNat = n) ∨ (e < 0 ∧ m = n * 2 ^ (-e).toNat)
  | _ => False

/-- The largest precision or scale. -/
def maxInt32 : Nat := 2147483647

/-- A set of annotations names a logical type that fits the primitive: the name is in the table
with this primitive as base, and a decimal has a precision in range. -/
def Fits (k : Prim) (value : String → Option Json) : Prop :=
  ∃ n, value "logicalType" = some (.str n) ∧ (n, k) ∈ logicalBases ∧
    (n = "decimal" → ∃ j p, value "precision" = some j ∧ IsNat p j ∧ p ≤ maxInt32)

/-- Precision and scale, where given, are plain integers, the scale in range. -/
def CleanDecimal (value : String → Option Json) : Prop :=
  (∀ j, value "precision" = some j → ∃ i, j = .num (.int i)) ∧
  ∀ j, value "scale" = some j → ∃ n : Nat, j = .num (.int n) ∧ n ≤ maxInt32

end Avdl.Spec
