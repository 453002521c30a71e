import Verif.Suggest
/-!
# Source spans

Model of the computation of source spans in /repo/src/reader.rs 1813-1828, 1865-1882, 2234-2280
and 2313-2331.  Positions are `isize` in the code and integers here.
-/

namespace Avdl

/-- The pieces of `source.split('\n')`. -/
def splitNewlines : List Char → List (List Char)
  | [] => [[]]
  | c :: cs =>
      if c = '\n' then [] :: splitNewlines cs
      else match splitNewlines cs with
        | [] => [[c]]
        | l :: ls => (c :: l) :: ls

/-- The loop of `line_col_to_byte_offset`, /repo/src/reader.rs 1821-1826: lines left, the number
of lines to skip and the offset so far. -/
def lineColLoop (column : Nat) : List (List Char) → Nat → Nat → Nat
  | [], _, _ => 0
  | l :: _, 0, offset => offset + min column (utf8Len l)
  | l :: ls, n + 1, offset => lineColLoop column ls n (offset + (utf8Len l + 1))

/-- `line_col_to_byte_offset`, /repo/src/reader.rs 1815-1828. -/
def lineColToByteOffset (source : List Char) (line column : Int) : Nat :=
  if line ≤ 0 ∨ column < 0 then 0
  else lineColLoop column.toNat (splitNewlines source) (line - 1).toNat 0

/-- `span_from_offsets`, /repo/src/reader.rs 2240-2248. -/
def spanFromOffsets (start stop : Int) : Nat × Nat :=
  if start ≥ 0 ∧ stop ≥ start then (start.toNat, (stop - start + 1).toNat)
  else if start ≥ 0 then (start.toNat, 1)
  else (0, 0)

/-- What the code uses of a token: `get_start` and `get_stop`. -/
structure TokenPos where
  start : Int
  stop : Int

/-- The span in `make_diagnostic_from_token`, /repo/src/reader.rs 2300. -/
def tokenSpan (t : TokenPos) : Nat × Nat := spanFromOffsets t.start t.stop

/-- The span in `make_diagnostic`, /repo/src/reader.rs 2263-2279, for a context with the given
first and last token. -/
def contextSpan (first last : TokenPos) : Nat × Nat :=
  let stop := if last.stop ≥ first.start then last.stop else first.stop
  spanFromOffsets first.start stop

/-- `span_from_context`, /repo/src/reader.rs 2319-2331, for a context with the given first
token. -/
def startSpan (first : TokenPos) : Option (Nat × Nat) :=
  let s := spanFromOffsets first.start first.stop
  if s.2 > 0 then some s else none

/-- The span of a syntax error, /repo/src/reader.rs 1859-1882: offending token, source text if the
listener has it, line and column. -/
def syntaxErrorSpan (offending : Option TokenPos) (source : Option (List Char))
    (line column : Int) : Nat × Nat :=
  match offending with
  | some tok => spanFromOffsets tok.start tok.stop
  | none =>
    match source with
    | some src => (lineColToByteOffset src line column, 1)
    | none => (0, 0)

end Avdl
