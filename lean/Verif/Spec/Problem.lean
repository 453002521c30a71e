import Verif.Spec.ImportDefect
/-!
# Specification: which error a compilation reports

The first thing that is wrong, in the order in which declarations and imports are followed.
Vocabulary for C56.
-/

namespace Avdl.Spec

/-- The field has a default value that does not conform to its type, all types in it being known. -/
def BadDefault (res : String → Option Schema) (f : Field) : Prop :=
  ∃ v, f.default = some v ∧ (∀ x, Mentions res f.schema x → res x ≠ none) ∧
    ¬ ConformsU res [] v f.schema

open Classical in
/-- The names of the fields with bad default values, in order. -/
noncomputable def badDefaults (res : String → Option Schema) (fs : List Field) : List String :=
  (fs.filter fun f => BadDefault res f).map Field.name

section
variable [CharTables]

/-- What is wrong with the event, the given types having been met before. -/
inductive EventFails (before : List Schema) : Event → CompileErr → Prop
  /-- A name that may not be declared. -/
  | illegal {s span spans n ns} : Props.DefinesType s n ns → ¬ (LegalName n ∧ LegalNamespace ns) →
      EventFails before (.type s span spans) (.register (.invalidName n ns) span)
  /-- A name that is declared already. -/
  | duplicate {s span spans x} : Props.Acceptable s → s.fullName? = some x →
      x ∈ (Props.firstAccepted [] before).map Prod.fst →
      EventFails before (.type s span spans) (.register (.duplicate x) span)
  /-- Bad default values: the error has the first field and, if the declaration has a position, all
  others. -/
  | defaults {n ns d fs e al ps span spans first sp related x xs} :
      Props.Acceptable (.record n ns d fs e al ps) →
      makeFullName n ns ∉ (Props.firstAccepted [] before).map Prod.fst →
      badDefaults (definition (Props.firstAccepted [] (before ++ [.record n ns d fs e al ps]))) fs =
        x :: xs →
      first.1 = x → (span ≠ none → related.map Prod.fst = xs) →
      EventFails before (.type (.record n ns d fs e al ps) span spans)
        (.invalidDefaults (makeFullName n ns) first sp related)
  /-- JSON that is not a schema or protocol: the error has its first defect. -/
  | schema {p j span e} : SchemaDefect j e.trail e.defect →
      EventFails before (.schema p j span) (.importFailed span (.importJson p e))
  | protocol {p j span e} : ProtocolDefect j e.trail e.defect →
      EventFails before (.protocol p j span) (.importFailed span (.importJson p e))

end

/-- What is wrong with a project, and comes first. -/
inductive Problem [CharTables] [FloatTables] [CaseTables] (w : World) (dirs : List Path)
    (text name : String) (dir : Path) (path : Option Path) : CompileErr → Prop
  /-- The file itself cannot be read. -/
  | file {e} : parseIdl w text name = .error e → Problem w dirs text name dir path e
  /-- All goes well up to an import that cannot be followed. -/
  | import_ {file decls ws es e} : parseIdl w text name = .ok (file, decls, ws) →
      Trace w dirs dir path.toList decls es (.stuck e) → EventsOk es →
      Problem w dirs text name dir path e
  /-- All goes well up to a declaration or an imported document that is not acceptable. -/
  | event {file decls ws es ev e} : parseIdl w text name = .ok (file, decls, ws) →
      Trace w dirs dir path.toList decls (es ++ [ev]) .cut → EventsOk es →
      EventFails (es.flatMap Event.types) ev e → Problem w dirs text name dir path e
  /-- All goes well, but names are not defined in the end: exactly the listed ones. -/
  | undefined {file decls ws es seen xs} : parseIdl w text name = .ok (file, decls, ws) →
      Trace w dirs dir path.toList decls es (.finished seen) → EventsOk es →
      xs ≠ [] → (xs.map Prod.fst).Nodup →
      (∀ x, x ∈ xs.map Prod.fst ↔ OutputRefersTo file es x ∧
        x ∉ (Props.firstAccepted [] (es.flatMap Event.types)).map Prod.fst) →
      Problem w dirs text name dir path (.undefined xs)

end Avdl.Spec
