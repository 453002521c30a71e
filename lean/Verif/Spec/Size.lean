import Verif.Schema
/-!
# Specification: how large schemas and documents are
-/

namespace Avdl

mutual
/-- The number of values in a JSON value, itself included. -/
def Json.nodes : Json → Nat
  | .null | .bool _ | .num _ | .str _ => 1
  | .arr l => 1 + Json.nodesL l
  | .obj m => 1 + Json.nodesM m
/-- The number of values in the elements of an array. -/
def Json.nodesL : List Json → Nat
  | [] => 0
  | j :: js => j.nodes + Json.nodesL js
/-- The number of values in the entries of an object. -/
def Json.nodesM : List (String × Json) → Nat
  | [] => 0
  | (_, j) :: js => j.nodes + Json.nodesM js
end

mutual
/-- The size of a schema: its types, fields, symbols and aliases, and the values in its defaults and
annotations. -/
def Schema.nodes : Schema → Nat
  | .prim _ => 1
  | .record _ _ _ fs _ al ps => 1 + Schema.nodesF fs + al.length + Json.nodesM ps
  | .enum _ _ _ sy _ al ps => 1 + sy.length + al.length + Json.nodesM ps
  | .fixed _ _ _ _ al ps => 1 + al.length + Json.nodesM ps
  | .array i ps => 1 + i.nodes + Json.nodesM ps
  | .map i ps => 1 + i.nodes + Json.nodesM ps
  | .union ts _ => 1 + Schema.nodesL ts
  | .annotated _ ps => 1 + Json.nodesM ps
  | .logical _ ps => 1 + Json.nodesM ps
  | .ref _ _ ps _ => 1 + Json.nodesM ps
/-- The size of fields. -/
def Schema.nodesF : List Field → Nat
  | [] => 0
  | .mk _ s _ df _ al ps :: fs =>
      1 + s.nodes + ((df.map Json.nodes).getD 0) + al.length + Json.nodesM ps + Schema.nodesF fs
/-- The size of a list of schemas. -/
def Schema.nodesL : List Schema → Nat
  | [] => 0
  | s :: ss => s.nodes + Schema.nodesL ss
end

/-- The size of a message. -/
def Message.nodes (m : Message) : Nat :=
  1 + Json.nodesM m.props + Schema.nodesF m.request + m.response.nodes +
    Schema.nodesL (m.errors.getD [])

/-- The size of the messages of a protocol. -/
def Message.nodesL : List (String × Message) → Nat
  | [] => 0
  | (_, m) :: ms => m.nodes + Message.nodesL ms

/-- The size of a protocol. -/
def Protocol.nodes (p : Protocol) : Nat :=
  1 + Json.nodesM p.props + Schema.nodesL p.types + Message.nodesL p.messages

end Avdl
