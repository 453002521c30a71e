import Verif.Lemmas.Evaluate
import Verif.Lemmas.MuteCompile
import Verif.Props.AvroJson
import Verif.Props.Layout
/-!
# Surprising inputs

Consequences of the definitions that users of the language may not expect, for C38 to C42.
-/

namespace Avdl.Props
open Spec

/-- The text behind the first U+001A is ignored, wherever that character stands, and so is the
character itself. -/
theorem C40_substitute_ends_file (file : String) (text rest : List Char) :
    parseSource file (String.ofList (text ++ '\x1a' :: rest)) =
      parseSource file (String.ofList text) := by
  have h : cutAtSub (text ++ '\x1a' :: rest) = cutAtSub text := by
    unfold cutAtSub
    induction text with
    | nil => rfl
    | cons c cs ih =>
      rw [List.cons_append, List.takeWhile_cons, List.takeWhile_cons, ih]
  unfold parseSource
  rw [String.toList_ofList, String.toList_ofList, h]

/-- So a declaration disappears behind a comment that contains U+001A. -/
example : (parseSource "" "enum A{B}/*\x1a*/enum C{D}").isSome =
    (parseSource "" "enum A{B}/*").isSome :=
  congrArg Option.isSome (C40_substitute_ends_file "" "enum A{B}/*".toList "*/enum C{D}".toList)

/-- `fixed f();` is a message whose result type is called `fixed`. -/
theorem C38_fixed_message : (parseSource "" "protocol P{fixed f();}").map (fun s => s.ast.mute) =
    some (.protocol ⟨0, [], "P",
      [.message ⟨0, [], some (.named "fixed" none false), "f", [], false, [], none⟩], none⟩) := by
  evaluate

/-- A reference to a type cannot be written as an object: any object whose type is no keyword is
rejected. -/
theorem C42_fails_type_object (ns : Option String) (obj : JMap) (t : String)
    (h : getStr obj "type" = some t) (hp : Prim.ofStr? t = none)
    (hk : t ∉ ["record", "error", "enum", "fixed", "array", "map"]) :
    jsonToSchema ns (.obj obj) = .error (Defect.unknownType t).here := by
  simp only [List.mem_cons, List.not_mem_nil, or_false, not_or] at hk
  rw [jsonToSchema, h]
  simp only [hk, hp, if_false, or_self]

/-- Nor can the type of an object be an object. -/
theorem C42_fails_nested_object (ns : Option String) (obj : JMap) (h : getStr obj "type" = none) :
    jsonToSchema ns (.obj obj) = .error Defect.missingType.here := by
  rw [jsonToSchema, h]

/-- A union that contains a union is accepted. -/
theorem C42_fails_nested_union : jsonToSchema none (.arr [.str "null", .arr [.str "int"]]) =
    .ok (.union [.prim .null, .union [.prim .int] false] false) := by rfl

example : jsonToSchema none (.obj [("type", .str "Ref")]) = .error (Defect.unknownType "Ref").here :=
  C42_fails_type_object none _ "Ref" rfl rfl (by decide)

example : jsonToSchema none (.obj [("type", .obj [("type", .str "int")])]) =
    .error Defect.missingType.here :=
  C42_fails_nested_object none _ rfl

end Avdl.Props
