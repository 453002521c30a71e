import Verif.Lemmas.BareReader
/-!
# Source positions and the output

Positions are not part of the JSON output.
-/

namespace Avdl.BareOutput
open BareReader

/-- A table without source positions. -/
def bareTable (lk : List (String × Schema)) : List (String × Schema) :=
  lk.map fun x => (x.1, x.2.bare)

theorem lookup_bare (lk : Lookup) (k : String) :
    Lookup.get? (bareTable lk) k = (Lookup.get? lk k).map Schema.bare := by
  induction lk with
  | nil => rfl
  | cons x lk ih =>
    obtain ⟨k', s⟩ := x
    show (if k' = k then _ else Lookup.get? (bareTable lk) k) = Option.map _ (if k' = k then _ else _)
    split
    · rfl
    · exact ih

mutual
theorem collectNamed_bare (dflt : Option String) : (s : Schema) → (lk : Lookup) →
    collectNamed dflt s.bare (bareTable lk) = bareTable (collectNamed dflt s lk)
  | .record n ns d fs e al ps, lk => by
      rw [Schema.bare, collectNamed, collectNamed, ← collectNamedFields_bare _ fs]
      rfl
  | .array i _, lk => collectNamed_bare dflt i lk
  | .map i _, lk => collectNamed_bare dflt i lk
  | .union ts _, lk => collectNamedList_bare dflt ts lk
  | .enum .., lk | .fixed .., lk | .prim _, lk | .annotated .., lk | .logical .., lk
  | .ref .., lk => rfl
theorem collectNamedFields_bare (dflt : Option String) : (fs : List Field) → (lk : Lookup) →
    collectNamedFields dflt (bareFields fs) (bareTable lk) =
      bareTable (collectNamedFields dflt fs lk)
  | [], lk => rfl
  | .mk n s d df o al ps :: fs, lk => by
      rw [bareFields, collectNamedFields, collectNamedFields, collectNamed_bare dflt s lk,
        collectNamedFields_bare dflt fs]
theorem collectNamedList_bare (dflt : Option String) : (ss : List Schema) → (lk : Lookup) →
    collectNamedList dflt (bareSchemas ss) (bareTable lk) = bareTable (collectNamedList dflt ss lk)
  | [], lk => rfl
  | s :: ss, lk => by
      rw [bareSchemas, collectNamedList, collectNamedList, collectNamed_bare dflt s lk,
        collectNamedList_bare dflt ss]
end

theorem buildLookup_bare (types : List Schema) (dflt : Option String) :
    buildLookup (types.map Schema.bare) dflt = bareTable (buildLookup types dflt) := by
  rw [← bareSchemas_map]
  exact collectNamedList_bare dflt types []

theorem mapAccum_map {α β γ σ : Type} (f : β → σ → Option (γ × σ)) (g : α → β) (l : List α)
    (s : σ) : mapAccum f (l.map g) s = mapAccum (fun a => f (g a)) l s := by
  induction l generalizing s with
  | nil => rfl
  | cons a l ih =>
    rw [List.map_cons, mapAccum, mapAccum]
    cases f (g a) s with
    | none => rfl
    | some r => dsimp only; rw [ih]

theorem fieldToJson_bare {ser ser' : Schema → Known → Option (Json × Known)}
    (h : ∀ s k, ser s.bare k = ser' s k) (f : Field) (known : Known) :
    fieldToJson ser f.bare known = fieldToJson ser' f known := by
  cases f with
  | mk n s d df o al ps =>
    show (match ser s.bare known with | none => _ | some (j, known) => _) = _
    rw [h]
    rfl

theorem fields_bare {ser ser' : Schema → Known → Option (Json × Known)}
    (h : ∀ s k, ser s.bare k = ser' s k) (fs : List Field) (known : Known) :
    mapAccum (fieldToJson ser) (fs.map Field.bare) known = mapAccum (fieldToJson ser') fs known := by
  rw [mapAccum_map]
  congr 1
  funext f k
  exact fieldToJson_bare h f k

theorem schemas_bare {ser ser' : Schema → Known → Option (Json × Known)}
    (h : ∀ s k, ser s.bare k = ser' s k) (ss : List Schema) (known : Known) :
    mapAccum ser (ss.map Schema.bare) known = mapAccum ser' ss known := by
  rw [mapAccum_map]
  congr 1
  funext s k
  exact h s k

theorem schemaToJson_bare (lk : Lookup) (n : Nat) (s : Schema) (encl : Option String)
    (known : Known) :
    schemaToJson (bareTable lk) n s.bare encl known = schemaToJson lk n s encl known := by
  induction n generalizing s encl known with
  | zero => rfl
  | succ n ih =>
    cases s with
    | record name ns d fs e al ps =>
      rw [Schema.bare, schemaToJson, schemaToJson]
      cases namedTypePreamble (if e then "error" else "record") name ns d known encl with
      | error b => rfl
      | ok r =>
        dsimp only
        rw [bareFields_map, fields_bare fun s k => ih s _ k]
    | array i ps =>
      rw [Schema.bare, schemaToJson, schemaToJson]
      rw [ih]
    | map i ps =>
      rw [Schema.bare, schemaToJson, schemaToJson]
      rw [ih]
    | union ts b =>
      rw [Schema.bare, schemaToJson, schemaToJson]
      rw [bareSchemas_map, schemas_bare fun s k => ih s _ k]
    | ref name ns ps sp =>
      rw [Schema.bare, schemaToJson, schemaToJson]
      split
      · rfl
      · rw [lookup_bare]
        cases Lookup.get? lk (makeFullName name ns) with
        | none => rfl
        | some r => exact ih r _ _
    | _ => rfl

theorem messageToJson_bare (lk : Lookup) (n : Nat) (encl : Option String) (m : Message)
    (known : Known) :
    messageToJson (bareTable lk) n encl m.bare known = messageToJson lk n encl m known := by
  obtain ⟨d, ps, req, resp, errs, ow⟩ := m
  unfold messageToJson Message.bare
  dsimp only
  rw [fields_bare fun s k => schemaToJson_bare lk n s encl k]
  cases mapAccum (fieldToJson fun s k => schemaToJson lk n s encl k) req known with
  | none => rfl
  | some r =>
    dsimp only
    rw [schemaToJson_bare]
    cases schemaToJson lk n resp encl r.2 with
    | none => rfl
    | some r' =>
      dsimp only
      cases errs with
      | none => rfl
      | some es =>
        dsimp only [Option.map_some]
        rw [schemas_bare fun s k => schemaToJson_bare lk n s encl k]
        rfl

theorem protocolToJson_bare (n : Nat) (p : Protocol) :
    protocolToJson n p.bare = protocolToJson n p := by
  unfold protocolToJson Protocol.bare
  dsimp only
  rw [buildLookup_bare, schemas_bare fun s k => schemaToJson_bare _ n s _ k]
  cases mapAccum (fun s k => schemaToJson (buildLookup p.types p.ns) n s p.ns k) p.types [] with
  | none => rfl
  | some r =>
    dsimp only
    rw [mapAccum_map]
    simp only [bareMessage, messageToJson_bare]
    rfl

theorem extractSchemas_bare (n : Nat) (types : List Schema) :
    extractSchemas n (types.map Schema.bare) = extractSchemas n types := by
  unfold extractSchemas
  dsimp only
  rw [buildLookup_bare]
  generalize buildLookup types none = lk
  induction types with
  | nil => rfl
  | cons s ss ih =>
    rw [List.map_cons, extractSchemas.go, extractSchemas.go, name_bare, ih, schemaToJson_bare]

end Avdl.BareOutput
