import Verif.Registry
/-!
# Spelling suggestions

Model of /repo/src/suggest.rs 13-47, of `suggest_similar_name` in /repo/src/compiler.rs and of
`suggest_keyword` in /repo/src/reader.rs.
-/

namespace Avdl

/-- `str::len`: the number of bytes in UTF-8. -/
def utf8Len : List Char → Nat
  | [] => 0
  | c :: cs => c.utf8Size + utf8Len cs

/-- The loop over `b`, /repo/src/suggest.rs 31-36, from some column on: the rest of `b`, the
previous row from this column on, the entry of the current row in this column, and what the
current row holds in the columns after it.  Result: the new contents of these.  `none` is an index
out of bounds. -/
def levInner (ca : Char) : List Char → List Nat → Nat → List Nat → Option (List Nat)
  | [], _, _, old => some old
  | cb :: bs, p0 :: p1 :: prev, left, _ :: old =>
      let cost := if ca = cb then 0 else 1
      let v := min (min (p0 + cost) (p1 + 1)) (left + 1)
      (levInner ca bs (p1 :: prev) v old).map (v :: ·)
  | _ :: _, _, _, _ => none

/-- The loop over `a`, /repo/src/suggest.rs 29-38: index, `prev_row` and `curr_row`; the result is
the final `prev_row`. -/
def levRows (b : List Char) : List Char → Nat → List Nat → List Nat → Option (List Nat)
  | [], _, prev, _ => some prev
  | ca :: a, i, prev, curr =>
      match curr with
      | [] => none
      | _ :: old =>
        match levInner ca b prev (i + 1) old with
        | none => none
        | some row => levRows b a (i + 1) ((i + 1) :: row) prev

/-- `levenshtein`, /repo/src/suggest.rs 13-40; `none` is an index out of bounds. -/
def levenshtein (a b : List Char) : Option Nat :=
  if utf8Len a = 0 then some (utf8Len b)
  else if utf8Len b = 0 then some (utf8Len a)
  else
    match levRows b a 0 (List.range (utf8Len b + 1)) (List.replicate (utf8Len b + 1) 0) with
    | none => none
    | some row => row[utf8Len b]?

/-- `max_edit_distance`, /repo/src/suggest.rs 45-47. -/
def maxEditDistance (len : Nat) : Nat := if len ≤ 4 then 1 else 2

/-- `name.rsplit('.').next()`. -/
def simplePart (name : List Char) : List Char :=
  match rsplitDot name with
  | some (_, s) => s
  | none => name

/-- `best`, /repo/src/compiler.rs 935: suggestion, distance, and whether it is a primitive. -/
abbrev Best := Option (String × Nat × Bool)

/-- One comparison, /repo/src/compiler.rs 939-943, 951-955, 963-971: `name` is compared with
`candidate`, and `suggestion` taken if that is close and closer than what was found before. -/
def consider (best : Best) (name candidate : List Char) (suggestion : String) (prim : Bool) :
    Option Best :=
  match levenshtein name candidate with
  | none => none
  | some dist =>
      if dist ≤ maxEditDistance (min (utf8Len name) (utf8Len candidate)) ∧
          (∀ b ∈ best, dist < b.2.1) then some (some (suggestion, dist, prim))
      else some best

/-- The loop over the primitives, /repo/src/compiler.rs 938-944. -/
def considerPrims (simple : List Char) : List String → Best → Option Best
  | [], best => some best
  | p :: ps, best =>
      match consider best simple p.toList p true with
      | none => none
      | some best => considerPrims simple ps best

/-- The loop over the registered names, /repo/src/compiler.rs 949-973. -/
def considerNames (unresolved simple : List Char) : List String → Best → Option Best
  | [], best => some best
  | n :: ns, best =>
      match consider best unresolved n.toList n false with
      | none => none
      | some best =>
        match consider best simple (simplePart n.toList) n false with
        | none => none
        | some best => considerNames unresolved simple ns best

/-- The help text for an undefined name. -/
inductive Hint where
  | misusedKeyword (keyword : String)
  | didYouMean (suggestion : String) (primitivesAreLowercase : Bool)
deriving DecidableEq

/-- `str::to_ascii_lowercase`. -/
def asciiLower (s : List Char) : List Char := s.map Char.toLower

/-- `keyword_misuse_hint`, /repo/src/compiler.rs 892-904. -/
def keywordMisuse (simple : List Char) : Option Hint :=
  if simple = "void".toList then some (.misusedKeyword "void")
  else if simple = "decimal".toList then some (.misusedKeyword "decimal")
  else none

/-- `suggest_similar_name`, /repo/src/compiler.rs 918-983.  The outer `none` is an index out of
bounds. -/
def suggestSimilarName (unresolved : String) (names : List String) : Option (Option Hint) :=
  let simple := simplePart unresolved.toList
  match keywordMisuse simple with
  | some h => some (some h)
  | none =>
    match considerPrims simple primitiveTypeNames none with
    | none => none
    | some best =>
      match considerNames unresolved.toList simple names best with
      | none => none
      | some none => some none
      | some (some (s, _, prim)) =>
          some (some (.didYouMean s (prim && asciiLower simple == asciiLower s.toList)))

/-- `AVRO_KEYWORDS`, /repo/src/reader.rs 895-923. -/
def avroKeywords : List String :=
  ["protocol", "record", "error", "enum", "fixed", "import", "schema", "namespace", "boolean",
   "int", "long", "float", "double", "string", "bytes", "null", "array", "map", "union", "void",
   "oneway", "throws", "date", "time_ms", "timestamp_ms", "local_timestamp_ms", "uuid"]

/-- The loop of `suggest_keyword`, /repo/src/reader.rs 938-953.  The outer `none` is an index out
of bounds. -/
def suggestLoop (lower : List Char) : List String → Option (String × Nat) → Option (Option String)
  | [], best => some (best.map Prod.fst)
  | kw :: kws, best =>
      if utf8Len kw.toList < 3 then suggestLoop lower kws best
      else
        match levenshtein lower kw.toList with
        | none => none
        | some dist =>
          if dist = 0 then some none
          else if dist ≤ maxEditDistance (utf8Len kw.toList) ∧ (∀ b ∈ best, dist < b.2) then
            suggestLoop lower kws (some (kw, dist))
          else suggestLoop lower kws best

/-- `suggest_keyword`, /repo/src/reader.rs 935-954. -/
def suggestKeyword (ident : String) : Option (Option String) :=
  suggestLoop (asciiLower ident.toList) avroKeywords none

end Avdl
