import Verif.Json
/-!
# Specification: how an Avro parser reads names in a JSON document

Independent of the compiler model: it mentions only JSON values.  It follows the "Names"
section of the Avro specification: a name containing a dot is a full name; otherwise a
definition takes its `namespace` attribute if present, else the enclosing namespace, and a
reference takes the enclosing namespace; an empty namespace means none.  A parser works
through the document in one pass and must know a type before it is referenced.
-/

namespace Avdl.Spec

/-- The names of the primitive types. -/
def primitives : List String :=
  ["null", "boolean", "int", "long", "float", "double", "bytes", "string"]

/-- Qualify a dot-free name; `""` is the null namespace. -/
def qualify (ns name : String) : String := if ns = "" then name else ns ++ "." ++ name

/-- The full name denoted by a name used where the enclosing namespace is `encl`. -/
def resolveName (encl name : String) : String :=
  if '.' ∈ name.toList then name else qualify encl name

/-- What the parser meets: the start of a definition, or a reference. -/
inductive Ev where
  | defn (fullName : String)
  | use (fullName : String)
deriving DecidableEq, Repr

/-- First value under a key. -/
def attr (key : String) : List (String × Json) → Option Json
  | [] => none
  | (k, v) :: t => if k = key then some v else attr key t

/-- String value under a key. -/
def strAttr (key : String) (m : List (String × Json)) : Option String :=
  match attr key m with
  | some (.str s) => some s
  | _ => none

/-- Part of a dotted name before the last dot. -/
def namespacePart : List Char → List Char
  | [] => []
  | c :: cs => if '.' ∈ cs then c :: namespacePart cs else []

/-- Full name and namespace of a definition object, in enclosing namespace `encl`. -/
def defName (encl : String) (m : List (String × Json)) : String × String :=
  match strAttr "name" m with
  | none => ("", encl)
  | some name =>
      if '.' ∈ name.toList then (name, String.ofList (namespacePart name.toList))
      else
        match strAttr "namespace" m with
        | some ns => (qualify ns name, ns)
        | none => (qualify encl name, encl)

mutual
/-- Definitions and references in a schema document, in parsing order. -/
def events (encl : String) : Json → List Ev
  | .str s => if s ∈ primitives then [] else [.use (resolveName encl s)]
  | .arr l => eventsList encl l
  | .obj m =>
      match strAttr "type" m with
      | some "record" | some "error" =>
          .defn (defName encl m).1 :: fieldsAttr (defName encl m).2 "fields" m
      | some "enum" | some "fixed" => [.defn (defName encl m).1]
      | some "array" => eventsAttr encl "items" m
      | some "map" => eventsAttr encl "values" m
      | _ => []
  | .null | .bool _ | .num _ => []
/-- Union branches (or error types, or protocol types). -/
def eventsList (encl : String) : List Json → List Ev
  | [] => []
  | j :: js => events encl j ++ eventsList encl js
/-- The schema under a key. -/
def eventsAttr (encl key : String) : List (String × Json) → List Ev
  | [] => []
  | (k, v) :: t => if k = key then events encl v else eventsAttr encl key t
/-- The field (or parameter) list under a key. -/
def fieldsAttr (encl key : String) : List (String × Json) → List Ev
  | [] => []
  | (k, v) :: t => if k = key then fieldsEvents encl v else fieldsAttr encl key t
/-- A field list. -/
def fieldsEvents (encl : String) : Json → List Ev
  | .arr l => fieldsEventsList encl l
  | .null | .bool _ | .num _ | .str _ | .obj _ => []
/-- The elements of a field list. -/
def fieldsEventsList (encl : String) : List Json → List Ev
  | [] => []
  | j :: js => fieldEvents encl j ++ fieldsEventsList encl js
/-- One field. -/
def fieldEvents (encl : String) : Json → List Ev
  | .obj m => eventsAttr encl "type" m
  | .null | .bool _ | .num _ | .str _ | .arr _ => []
end

/-- Error list of a message. -/
def errorsEvents (encl : String) (m : List (String × Json)) : List Ev :=
  match attr "errors" m with
  | some (.arr l) => eventsList encl l
  | _ => []

/-- One message of a protocol document. -/
def messageEvents (encl : String) : Json → List Ev
  | .obj m => fieldsAttr encl "request" m ++ eventsAttr encl "response" m ++ errorsEvents encl m
  | _ => []

/-- A protocol document: its types in order, then its messages. -/
def protocolEvents : Json → List Ev
  | .obj m =>
      let encl := (strAttr "namespace" m).getD ""
      (match attr "types" m with
        | some (.arr l) => eventsList encl l
        | _ => []) ++
      (match attr "messages" m with
        | some (.obj ms) => ms.flatMap fun nm => messageEvents encl nm.2
        | _ => [])
  | _ => []

/-- Run the parser: `none` if it meets a second definition of a name or a reference to a name
not defined so far; otherwise the names defined at the end (most recent first). -/
def run : List Ev → List String → Option (List String)
  | [], defined => some defined
  | .defn x :: es, defined => if x ∈ defined then none else run es (x :: defined)
  | .use x :: es, defined => if x ∈ defined then run es defined else none

/-- Names defined by an event sequence, in order. -/
def defs : List Ev → List String
  | [] => []
  | .defn x :: es => x :: defs es
  | .use _ :: es => defs es

end Avdl.Spec
