import Verif.Defaults
/-!
# The check of default values with its mutable set

`resolveInner` (Verif/Defaults.lean) passes the set of records being visited down.  Here it is the
mutable `HashSet` of the code, threaded through; C13 shows that this gives the same results for all
types the compiler registers.
-/

namespace Avdl

/-- A loop with early return that mutates a set, /repo/src/model/schema.rs 987-993 and
1014-1026. -/
def resolveLoopM {α β : Type} (f : α → List String → Resolved β × List String) :
    List α → List String → Resolved (List β) × List String
  | [], visited => (.done [], visited)
  | a :: as, visited =>
      match f a visited with
      | (.timeout, visited) => (.timeout, visited)
      | (.unresolved, visited) => (.unresolved, visited)
      | (.done b, visited) =>
          match resolveLoopM f as visited with
          | (.timeout, visited) => (.timeout, visited)
          | (.unresolved, visited) => (.unresolved, visited)
          | (.done bs, visited) => (.done (b :: bs), visited)

/-- `resolve_for_validation_inner`, /repo/src/model/schema.rs 953-1061, with the set `visited` after
the call.  The first argument after the resolver is fuel. -/
def resolveInnerM (resolver : String → Option Schema) :
    Nat → Schema → List String → Resolved Schema × List String
  | 0, _, visited => (.timeout, visited)
  | n + 1, s, visited =>
    match s with
    | .ref name ns ps sp =>
        if visited.contains (makeFullName name ns) then (.done (.ref name ns ps sp), visited)
        else match resolver (makeFullName name ns) with
          | none => (.unresolved, visited)
          | some r => resolveInnerM resolver n r visited
    | .union ts b =>
        match resolveLoopM (resolveInnerM resolver n) ts visited with
        | (.timeout, visited) => (.timeout, visited)
        | (.unresolved, visited) => (.unresolved, visited)
        | (.done ts', visited) => (.done (.union ts' b), visited)
    | .record name ns d fields e al ps =>
        match resolveLoopM (fun f v =>
            (resolveField f (resolveInnerM resolver n f.schema v).1,
              (resolveInnerM resolver n f.schema v).2)) fields
            (visited.insert (makeFullName name ns)) with
        | (.timeout, visited) => (.timeout, visited)
        | (.unresolved, visited) => (.unresolved, visited)
        | (.done fs', visited) =>
            (.done (.record name ns d fs' e al ps),
              visited.filter fun x => x != makeFullName name ns)
    | .array i ps =>
        match resolveInnerM resolver n i visited with
        | (.timeout, visited) => (.timeout, visited)
        | (.unresolved, visited) => (.unresolved, visited)
        | (.done i', visited) => (.done (.array i' ps), visited)
    | .map i ps =>
        match resolveInnerM resolver n i visited with
        | (.timeout, visited) => (.timeout, visited)
        | (.unresolved, visited) => (.unresolved, visited)
        | (.done i', visited) => (.done (.map i' ps), visited)
    | .prim p => (.done (.prim p), visited)
    | .enum a b c d e f g => (.done (.enum a b c d e f g), visited)
    | .fixed a b c d e f => (.done (.fixed a b c d e f), visited)
    | .annotated k ps => (.done (.annotated k ps), visited)
    | .logical lt ps => (.done (.logical lt ps), visited)

/-- `validate_record_field_defaults`, /repo/src/model/schema.rs 901-950, with
`resolve_for_validation_inner` as above. -/
def validateRecordFieldDefaultsM (resolver : String → Option Schema) (fuel : Nat) :
    Schema → Option (List (String × DefaultReason))
  | .record _ _ _ fields _ _ _ => go fields
  | _ => some []
where
  go : List Field → Option (List (String × DefaultReason))
  | [] => some []
  | f :: fs =>
      match f.default with
      | none => go fs
      | some v =>
          match (resolveInnerM resolver fuel f.schema []).1 with
          | .timeout => none
          | .unresolved => go fs
          | .done r =>
              match validateDefault v r with
              | none => go fs
              | some reason => (go fs).map ((f.name, reason) :: ·)

end Avdl
