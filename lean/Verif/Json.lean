/-!
# JSON values

Model of `serde_json::Value` as used throughout `/repo/src`.
`serde_json::Map` is a `BTreeMap` here (the crate's `preserve_order` feature is not
enabled in `/repo/Cargo.toml`), so objects are association lists sorted by key.
-/

namespace Avdl

/-- `serde_json::Number` (used in /repo/src/model/schema.rs 693-716, /repo/src/reader.rs
4446-4464).  `int` covers the `u64`/`i64` representations; `float neg m e` is the finite
`f64` with value `±m·2^e`.  Simplification: integers are not bounded by the constructor;
the predicates below check the ranges. -/
inductive JNum where
  | int (i : Int)
  | float (neg : Bool) (m : Nat) (e : Int)
deriving DecidableEq, Repr

/-- `serde_json::Value`; `obj` is a key-sorted association list. -/
inductive Json where
  | null
  | bool (b : Bool)
  | num (n : JNum)
  | str (s : String)
  | arr (l : List Json)
  | obj (m : List (String × Json))
deriving Repr

/-- `serde_json::Map<String, Value>`. -/
abbrev JMap := List (String × Json)

mutual
/-- Decidable equality for `Json` (the derive handler does not support nested types). -/
def Json.decEq : (a b : Json) → Decidable (a = b)
  | .null, .null => isTrue rfl
  | .bool x, .bool y => decidable_of_iff (x = y) (by simp)
  | .num x, .num y => decidable_of_iff (x = y) (by simp)
  | .str x, .str y => decidable_of_iff (x = y) (by simp)
  | .arr x, .arr y =>
      match Json.decEqList x y with
      | isTrue h => isTrue (by rw [h])
      | isFalse h => isFalse (by intro h'; cases h'; exact h rfl)
  | .obj x, .obj y =>
      match Json.decEqMap x y with
      | isTrue h => isTrue (by rw [h])
      | isFalse h => isFalse (by intro h'; cases h'; exact h rfl)
  | .null, .bool _ | .null, .num _ | .null, .str _ | .null, .arr _ | .null, .obj _
  | .bool _, .null | .bool _, .num _ | .bool _, .str _ | .bool _, .arr _ | .bool _, .obj _
  | .num _, .null | .num _, .bool _ | .num _, .str _ | .num _, .arr _ | .num _, .obj _
  | .str _, .null | .str _, .bool _ | .str _, .num _ | .str _, .arr _ | .str _, .obj _
  | .arr _, .null | .arr _, .bool _ | .arr _, .num _ | .arr _, .str _ | .arr _, .obj _
  | .obj _, .null | .obj _, .bool _ | .obj _, .num _ | .obj _, .str _ | .obj _, .arr _ => isFalse (by intro h; cases h)
/-- List part of `Json.decEq`. -/
def Json.decEqList : (a b : List Json) → Decidable (a = b)
  | [], [] => isTrue rfl
  | [], _ :: _ => isFalse (by intro h; cases h)
  | _ :: _, [] => isFalse (by intro h; cases h)
  | a :: s, b :: t =>
      match Json.decEq a b, Json.decEqList s t with
      | isTrue h, isTrue h' => isTrue (by rw [h, h'])
      | isFalse h, _ => isFalse (by intro h'; cases h'; exact h rfl)
      | _, isFalse h => isFalse (by intro h'; cases h'; exact h rfl)
/-- Object part of `Json.decEq`. -/
def Json.decEqMap : (a b : List (String × Json)) → Decidable (a = b)
  | [], [] => isTrue rfl
  | [], _ :: _ => isFalse (by intro h; cases h)
  | _ :: _, [] => isFalse (by intro h; cases h)
  | (k, a) :: s, (k', b) :: t =>
      match (inferInstance : Decidable (k = k')), Json.decEq a b, Json.decEqMap s t with
      | isTrue h0, isTrue h, isTrue h' => isTrue (by rw [h0, h, h'])
      | isFalse h, _, _ => isFalse (by intro h'; cases h'; exact h rfl)
      | _, isFalse h, _ => isFalse (by intro h'; cases h'; exact h rfl)
      | _, _, isFalse h => isFalse (by intro h'; cases h'; exact h rfl)
end

instance : DecidableEq Json := Json.decEq

namespace JMap

/-- `Map::get`. -/
def get? : JMap → String → Option Json
  | [], _ => none
  | (k, v) :: t, key => if k = key then some v else get? t key

/-- `Map::insert` on a `BTreeMap`: keeps the list sorted, replaces an existing value. -/
def insert (k : String) (v : Json) : JMap → JMap
  | [] => [(k, v)]
  | (k', v') :: t =>
      if k = k' then (k, v) :: t
      else if k < k' then (k, v) :: (k', v') :: t
      else (k', v') :: insert k v t

/-- `for (k, v) in props { obj.insert(k.clone(), v.clone()); }`, the loop used for custom
properties all over /repo/src/model/json.rs (e.g. lines 74-76, 238-240, 274-276). -/
def insertAll (m : JMap) (props : List (String × Json)) : JMap :=
  props.foldl (fun acc kv => insert kv.1 kv.2 acc) m

end JMap

namespace Json

/-- `Value::as_str`. -/
def asStr : Json → Option String
  | .str s => some s
  | _ => none

/-- `Value::as_array`. -/
def asArr : Json → Option (List Json)
  | .arr l => some l
  | _ => none

/-- `Value::as_bool`. -/
def asBool : Json → Option Bool
  | .bool b => some b
  | _ => none

/-- `Value::as_u64` (floats are not converted, even when whole). -/
def asU64 : Json → Option Nat
  | .num (.int i) => if 0 ≤ i ∧ i < 2 ^ 64 then some i.toNat else none
  | _ => none

/-- `Value::is_string`. -/
def isStr : Json → Bool
  | .str _ => true
  | _ => false

end Json

/-- `HashMap<String, Value>` used for custom properties.  The list order stands for the
unspecified iteration order; well-formed maps have distinct keys. -/
abbrev Props := List (String × Json)

namespace Props

/-- `HashMap::get`. -/
def get? (p : Props) (k : String) : Option Json := JMap.get? p k

/-- `HashMap::remove`. -/
def erase (p : Props) (k : String) : Props := p.filter (fun kv => kv.1 ≠ k)

/-- `HashMap::insert`: replaces the value of an existing key.  The place of a new key in the
iteration order is arbitrary; the model appends it. -/
def insert (p : Props) (k : String) (v : Json) : Props := erase p k ++ [(k, v)]

/-- `HashMap::extend`. -/
def extend (p q : Props) : Props := q.foldl (fun acc kv => insert acc kv.1 kv.2) p

/-- Distinct keys. -/
def Wf (p : Props) : Prop := (p.map Prod.fst).Nodup

end Props

end Avdl
