import Verif.Lemmas.Blank
import Verif.Lemmas.Json
import Verif.Spec.Redocument
/-!
# Documentation and the output

Positions and the mark of optional types are not part of the JSON output, and documentation only
gives `doc` attributes.
-/

namespace Avdl.MuteOutput
open Blank Spec.Redocument

/-- A table without positions, documentation and marks of optional types. -/
def blankTable (lk : List (String × Schema)) : List (String × Schema) :=
  lk.map fun x => (x.1, x.2.blank)

theorem lookup_blank (lk : Lookup) (k : String) :
    Lookup.get? (blankTable lk) k = (Lookup.get? lk k).map Schema.blank := by
  induction lk with
  | nil => rfl
  | cons x lk ih =>
    obtain ⟨k', s⟩ := x
    show (if k' = k then _ else Lookup.get? (blankTable lk) k) = Option.map _ (if k' = k then _ else _)
    split
    · rfl
    · exact ih

mutual
theorem collectNamed_blank (dflt : Option String) : (s : Schema) → (lk : Lookup) →
    collectNamed dflt s.blank (blankTable lk) = blankTable (collectNamed dflt s lk)
  | .record n ns d fs e al ps, lk => by
      rw [Schema.blank, collectNamed, collectNamed, ← collectNamedFields_blank _ fs]
      rfl
  | .array i _, lk => collectNamed_blank dflt i lk
  | .map i _, lk => collectNamed_blank dflt i lk
  | .union ts _, lk => collectNamedList_blank dflt ts lk
  | .enum .., lk | .fixed .., lk | .prim _, lk | .annotated .., lk | .logical .., lk
  | .ref .., lk => rfl
theorem collectNamedFields_blank (dflt : Option String) : (fs : List Field) → (lk : Lookup) →
    collectNamedFields dflt (blankFields fs) (blankTable lk) =
      blankTable (collectNamedFields dflt fs lk)
  | [], lk => rfl
  | .mk n s d df o al ps :: fs, lk => by
      rw [blankFields, collectNamedFields, collectNamedFields, collectNamed_blank dflt s lk,
        collectNamedFields_blank dflt fs]
theorem collectNamedList_blank (dflt : Option String) : (ss : List Schema) → (lk : Lookup) →
    collectNamedList dflt (blankSchemas ss) (blankTable lk) = blankTable (collectNamedList dflt ss lk)
  | [], lk => rfl
  | s :: ss, lk => by
      rw [blankSchemas, collectNamedList, collectNamedList, collectNamed_blank dflt s lk,
        collectNamedList_blank dflt ss]
end

theorem buildLookup_blank (types : List Schema) (dflt : Option String) :
    buildLookup (types.map Schema.blank) dflt = blankTable (buildLookup types dflt) := by
  rw [← blankSchemas_map]
  exact collectNamedList_blank dflt types []

theorem mapAccum_map {α β γ σ : Type} (f : β → σ → Option (γ × σ)) (g : α → β) (l : List α)
    (s : σ) : mapAccum f (l.map g) s = mapAccum (fun a => f (g a)) l s := by
  induction l generalizing s with
  | nil => rfl
  | cons a l ih =>
    rw [List.map_cons, mapAccum, mapAccum]
    cases f (g a) s with
    | none => rfl
    | some r => dsimp only; rw [ih]

/-! ## Objects up to `doc` -/

/-- What `undocMembers` makes of the value of a member. -/
def part (k : String) (v : Json) : Json :=
  if k = "messages" then undocMessages v else if k ∈ schemaPlaces then undoc v else v

theorem undocMembers_cons (k : String) (v : Json) (m : JMap) :
    undocMembers ((k, v) :: m) =
      if k = "doc" then undocMembers m else (k, part k v) :: undocMembers m := by
  rw [undocMembers]
  rfl

theorem undocMembers_keys {m : JMap} {x : String × Json} (h : x ∈ undocMembers m) :
    ∃ y ∈ m, y.1 = x.1 := by
  induction m with
  | nil => rw [undocMembers] at h; cases h
  | cons a m ih =>
    obtain ⟨k, v⟩ := a
    rw [undocMembers_cons] at h
    split at h
    · obtain ⟨y, hy, e⟩ := ih h
      exact ⟨y, List.mem_cons_of_mem _ hy, e⟩
    · rcases List.mem_cons.mp h with rfl | h
      · exact ⟨(k, v), List.mem_cons_self .., rfl⟩
      · obtain ⟨y, hy, e⟩ := ih h
        exact ⟨y, List.mem_cons_of_mem _ hy, e⟩

theorem insert_first {m : JMap} {k : String} (h : ∀ x ∈ m, k < x.1) (v : Json) :
    JMap.insert k v m = (k, v) :: m := by
  cases m with
  | nil => rfl
  | cons a m =>
    obtain ⟨k', v'⟩ := a
    have h1 : k < k' := h (k', v') (List.mem_cons_self ..)
    rw [JMap.insert, if_neg fun e => String.lt_irrefl _ (e ▸ h1), if_pos h1]

theorem undocMembers_insert {m : JMap} (hm : JMap.Sorted m) (k : String) (v : Json) :
    undocMembers (JMap.insert k v m) =
      if k = "doc" then undocMembers m else JMap.insert k (part k v) (undocMembers m) := by
  induction m with
  | nil =>
    rw [JMap.insert, undocMembers_cons]
    split <;> rfl
  | cons a m ih =>
    obtain ⟨k', v'⟩ := a
    have hp := List.pairwise_cons.mp hm
    rw [JMap.insert]
    split
    · rename_i e
      subst e
      rw [undocMembers_cons, undocMembers_cons]
      split
      · rfl
      · rw [JMap.insert, if_pos rfl]
    · rename_i hne
      split
      · rename_i hlt
        rw [undocMembers_cons]
        split
        · rfl
        · rw [insert_first]
          intro x hx
          obtain ⟨y, hy, e⟩ := undocMembers_keys hx
          rw [← e]
          rcases List.mem_cons.mp hy with rfl | hy
          · exact hlt
          · exact String.lt_trans hlt (hp.1 y hy)
      · rename_i hnlt
        rw [undocMembers_cons, undocMembers_cons, ih hp.2]
        by_cases e : k' = "doc"
        · rw [if_pos e, if_pos e]
        · rw [if_neg e, if_neg e]
          split
          · rfl
          · rw [JMap.insert, if_neg hne, if_neg hnlt]

/-- Sorted objects with the same members apart from `doc`. -/
structure Alike (m m' : JMap) : Prop where
  left : JMap.Sorted m
  right : JMap.Sorted m'
  same : undocMembers m = undocMembers m'

theorem Alike.nil : Alike [] [] := ⟨.nil, .nil, rfl⟩

theorem Alike.insert {m m' : JMap} (h : Alike m m') (k : String) {v v' : Json}
    (hv : part k v = part k v') : Alike (JMap.insert k v m) (JMap.insert k v' m') :=
  ⟨h.left.insert _ _, h.right.insert _ _, by
    rw [undocMembers_insert h.left, undocMembers_insert h.right, h.same, hv]⟩

theorem Alike.doc {m m' : JMap} (h : Alike m m') (v : Json) : Alike (JMap.insert "doc" v m) m' :=
  ⟨h.left.insert _ _, h.right, by rw [undocMembers_insert h.left, if_pos rfl, h.same]⟩

theorem Alike.docs {m m' : JMap} (h : Alike m m') (d : Option String) :
    Alike (match d with | some d => JMap.insert "doc" (.str d) m | none => m) m' := by
  cases d with
  | none => exact h
  | some d => exact h.doc _

theorem Alike.insertAll {m m' : JMap} (h : Alike m m') (ps : List (String × Json)) :
    Alike (m.insertAll ps) (m'.insertAll ps) := by
  unfold JMap.insertAll
  induction ps generalizing m m' with
  | nil => exact h
  | cons p ps ih => exact ih (h.insert _ rfl)

theorem Alike.undoc {m m' : JMap} (h : Alike m m') : undoc (.obj m) = undoc (.obj m') := by
  rw [Spec.Redocument.undoc, Spec.Redocument.undoc, h.same]

theorem undocList_map (l : List Json) : undocList l = l.map undoc := by
  induction l with
  | nil => rfl
  | cons j l ih => rw [undocList, ih]; rfl

theorem part_schema {k : String} (hk : k ∈ schemaPlaces) (v : Json) : part k v = undoc v := by
  unfold part
  rw [if_neg fun e => absurd (e ▸ hk) (by decide), if_pos hk]

theorem part_list {k : String} (hk : k ∈ schemaPlaces) {l l' : List Json}
    (h : l.map undoc = l'.map undoc) : part k (.arr l) = part k (.arr l') := by
  rw [part_schema hk, part_schema hk, undoc, undoc, undocList_map, undocList_map, h]

/-! ## Serialization -/

/-- A result up to `doc`. -/
def undocOut (r : Json × Known) : Json × Known := (undoc r.1, r.2)

/-- A list of results up to `doc`. -/
def undocOuts (r : List Json × Known) : List Json × Known := (r.1.map undoc, r.2)

theorem mapAccum_on {α β γ : Type} (g : β → γ) {f f' : α → Known → Option (β × Known)} {l : List α}
    (h : ∀ a k, (f' a k).map (fun r => (g r.1, r.2)) = (f a k).map fun r => (g r.1, r.2))
    (known : Known) :
    (mapAccum f' l known).map (fun r => (r.1.map g, r.2)) =
      (mapAccum f l known).map fun r => (r.1.map g, r.2) := by
  induction l generalizing known with
  | nil => rfl
  | cons a l ih =>
    have ha := h a known
    rw [mapAccum, mapAccum]
    cases e : f a known with
    | none =>
      cases e' : f' a known with
      | none => rfl
      | some r' => rw [e, e'] at ha; cases ha
    | some r =>
      cases e' : f' a known with
      | none => rw [e, e'] at ha; cases ha
      | some r' =>
        rw [e, e'] at ha
        injection ha with ha
        have h1 : g r'.1 = g r.1 := congrArg Prod.fst ha
        have h2 : r'.2 = r.2 := by have := congrArg Prod.snd ha; exact this
        dsimp only
        rw [h2]
        have hl := ih r.2
        cases e2 : mapAccum f l r.2 with
        | none =>
          cases e3 : mapAccum f' l r.2 with
          | none => rfl
          | some q => rw [e2, e3] at hl; cases hl
        | some q =>
          cases e3 : mapAccum f' l r.2 with
          | none => rw [e2, e3] at hl; cases hl
          | some q' =>
            rw [e2, e3] at hl
            injection hl with hl
            have h3 : q'.1.map g = q.1.map g := congrArg Prod.fst hl
            have h4 : q'.2 = q.2 := by have := congrArg Prod.snd hl; exact this
            show some (_, _) = some (_, _)
            rw [List.map_cons, List.map_cons, h1, h3, h4]

theorem mapAccum_undoc {α : Type} {f f' : α → Known → Option (Json × Known)} {l : List α}
    (h : ∀ a k, (f' a k).map undocOut = (f a k).map undocOut) (known : Known) :
    (mapAccum f' l known).map undocOuts = (mapAccum f l known).map undocOuts :=
  mapAccum_on undoc h known

theorem fieldObj_alike (f : Field) {j j' : Json} (h : undoc j' = undoc j) :
    Alike (fieldObj f j) (fieldObj f.blank j') := by
  obtain ⟨n, s, d, df, o, al, ps⟩ := f
  unfold fieldObj
  refine Alike.insertAll ?_ ps
  have h0 : Alike (JMap.insert "type" j (JMap.insert "name" (.str n) []))
      (JMap.insert "type" j' (JMap.insert "name" (.str n) [])) :=
    (Alike.nil.insert _ rfl).insert _ (by rw [part_schema (by decide), part_schema (by decide), h])
  have h1 := h0.docs d
  have h3 : ∀ {m m' : JMap}, Alike m m' → Alike (orderEntry o m) (orderEntry o m') := by
    intro m m' h
    unfold orderEntry
    split
    · exact h.insert _ rfl
    · exact h.insert _ rfl
    · exact h
    · exact h
  have h4 : ∀ {m m' : JMap}, Alike m m' →
      Alike (if al = [] then m else JMap.insert "aliases" (.arr (al.map .str)) m)
        (if al = [] then m' else JMap.insert "aliases" (.arr (al.map .str)) m') := by
    intro m m' h
    split
    · exact h
    · exact h.insert _ rfl
  refine h4 (h3 ?_)
  cases df with
  | none => exact h1
  | some v => exact h1.insert _ rfl

theorem fieldToJson_blank {ser ser' : Schema → Known → Option (Json × Known)}
    (h : ∀ s k, (ser s.blank k).map undocOut = (ser' s k).map undocOut) (f : Field) (known : Known) :
    (fieldToJson ser f.blank known).map undocOut = (fieldToJson ser' f known).map undocOut := by
  unfold fieldToJson
  rw [fieldSchema_blank]
  have hs := h f.schema known
  cases e : ser' f.schema known with
  | none =>
    cases e' : ser f.schema.blank known with
    | none => rfl
    | some r' => rw [e, e'] at hs; cases hs
  | some r =>
    cases e' : ser f.schema.blank known with
    | none => rw [e, e'] at hs; cases hs
    | some r' =>
      rw [e, e'] at hs
      injection hs with hs
      have h1 : undoc r'.1 = undoc r.1 := congrArg Prod.fst hs
      have h2 : r'.2 = r.2 := by have := congrArg Prod.snd hs; exact this
      show some (_, _) = some (_, _)
      rw [(fieldObj_alike f h1).undoc, h2]

theorem fields_blank {ser ser' : Schema → Known → Option (Json × Known)}
    (h : ∀ s k, (ser s.blank k).map undocOut = (ser' s k).map undocOut) (fs : List Field)
    (known : Known) :
    (mapAccum (fieldToJson ser) (fs.map Field.blank) known).map undocOuts =
      (mapAccum (fieldToJson ser') fs known).map undocOuts := by
  rw [mapAccum_map]
  exact mapAccum_undoc (fun f k => fieldToJson_blank h f k) known

theorem schemas_blank {ser ser' : Schema → Known → Option (Json × Known)}
    (h : ∀ s k, (ser s.blank k).map undocOut = (ser' s k).map undocOut) (ss : List Schema)
    (known : Known) :
    (mapAccum ser (ss.map Schema.blank) known).map undocOuts = (mapAccum ser' ss known).map undocOuts := by
  rw [mapAccum_map]
  exact mapAccum_undoc (fun s k => h s k) known

/-- Two results that agree up to `doc`: both are missing or both are there. -/
theorem outs_cases {x x' : Option (List Json × Known)} (h : x'.map undocOuts = x.map undocOuts) :
    (x = none ∧ x' = none) ∨ ∃ l l' k, x = some (l, k) ∧ x' = some (l', k) ∧
      l.map undoc = l'.map undoc := by
  cases x with
  | none =>
    cases x' with
    | none => exact .inl ⟨rfl, rfl⟩
    | some r => cases h
  | some r =>
    cases x' with
    | none => cases h
    | some r' =>
      injection h with h
      have h1 : r'.1.map undoc = r.1.map undoc := congrArg Prod.fst h
      have h2 : r'.2 = r.2 := by have := congrArg Prod.snd h; exact this
      exact .inr ⟨r.1, r'.1, r.2, rfl, by rw [← h2], h1.symm⟩

theorem out_cases {x x' : Option (Json × Known)} (h : x'.map undocOut = x.map undocOut) :
    (x = none ∧ x' = none) ∨ ∃ j j' k, x = some (j, k) ∧ x' = some (j', k) ∧ undoc j = undoc j' := by
  cases x with
  | none =>
    cases x' with
    | none => exact .inl ⟨rfl, rfl⟩
    | some r => cases h
  | some r =>
    cases x' with
    | none => cases h
    | some r' =>
      injection h with h
      have h1 : undoc r'.1 = undoc r.1 := congrArg Prod.fst h
      have h2 : r'.2 = r.2 := by have := congrArg Prod.snd h; exact this
      exact .inr ⟨r.1, r'.1, r.2, rfl, by rw [← h2], h1.symm⟩

/-- The two preambles are the same name or alike. -/
theorem preamble_blank (t name : String) (ns d : Option String) (known : Known)
    (encl : Option String) :
    (∃ j, namedTypePreamble t name ns d known encl = .error j ∧
      namedTypePreamble t name ns none known encl = .error j) ∨
    ∃ m m' k, namedTypePreamble t name ns d known encl = .ok (m, k) ∧
      namedTypePreamble t name ns none known encl = .ok (m', k) ∧ Alike m m' := by
  unfold namedTypePreamble
  dsimp only
  split
  · exact .inl ⟨_, rfl, rfl⟩
  · refine .inr ⟨_, _, _, rfl, rfl, Alike.docs ?_ d⟩
    have h0 : Alike (JMap.insert "name" (.str name) (JMap.insert "type" (.str t) []))
        (JMap.insert "name" (.str name) (JMap.insert "type" (.str t) [])) :=
      (Alike.nil.insert _ rfl).insert _ rfl
    cases ns with
    | none => exact h0
    | some n =>
      dsimp only
      split
      · exact h0.insert _ rfl
      · exact h0

theorem Alike.finish {m m' : JMap} (h : Alike m m') (props : Props) (aliases : List String)
    (ns : Option String) :
    Alike (finishNamedType m props aliases ns) (finishNamedType m' props aliases ns) := by
  unfold finishNamedType
  dsimp only
  split
  · exact h.insertAll _
  · exact (h.insertAll _).insert _ rfl

theorem Alike.enumObj {m m' : JMap} (h : Alike m m') (symbols : List String)
    (dflt : Option String) : Alike (enumObj symbols dflt m) (enumObj symbols dflt m') := by
  unfold Avdl.enumObj
  cases dflt with
  | none => exact h.insert _ rfl
  | some d => exact (h.insert _ rfl).insert _ rfl

theorem schemaToJson_blank (lk : Lookup) (n : Nat) (s : Schema) (encl : Option String)
    (known : Known) :
    (schemaToJson (blankTable lk) n s.blank encl known).map undocOut =
      (schemaToJson lk n s encl known).map undocOut := by
  induction n generalizing s encl known with
  | zero => rfl
  | succ n ih =>
    cases s with
    | record name ns d fs e al ps =>
      rw [Schema.blank, schemaToJson, schemaToJson]
      rcases preamble_blank (if e then "error" else "record") name ns d known encl with
        ⟨j, h1, h2⟩ | ⟨m, m', k, h1, h2, ha⟩
      · rw [h1, h2]
      · rw [h1, h2]
        dsimp only
        rw [blankFields_map]
        rcases outs_cases (fields_blank
            (ser := fun s k => schemaToJson (blankTable lk) n s (ns.or encl) k)
            (ser' := fun s k => schemaToJson lk n s (ns.or encl) k)
            (fun s k => ih s (ns.or encl) k) fs k) with
          ⟨e1, e2⟩ | ⟨l, l', k', e1, e2, hl⟩
        · rw [e1, e2]
        · rw [e1, e2]
          show some (_, _) = some (_, _)
          rw [((ha.insert "fields" (part_list (by decide) hl)).finish ps al ns).undoc]
    | enum name ns d sy df al ps =>
      rw [Schema.blank, schemaToJson, schemaToJson]
      rcases preamble_blank "enum" name ns d known encl with ⟨j, h1, h2⟩ | ⟨m, m', k, h1, h2, ha⟩
      · rw [h1, h2]
      · rw [h1, h2]
        show some (_, _) = some (_, _)
        rw [((ha.enumObj sy df).finish ps al ns).undoc]
    | fixed name ns d sz al ps =>
      rw [Schema.blank, schemaToJson, schemaToJson]
      rcases preamble_blank "fixed" name ns d known encl with ⟨j, h1, h2⟩ | ⟨m, m', k, h1, h2, ha⟩
      · rw [h1, h2]
      · rw [h1, h2]
        show some (_, _) = some (_, _)
        rw [((ha.insert "size" (rfl : part "size" (.num (.int sz)) = _)).finish ps al ns).undoc]
    | array i ps =>
      rw [Schema.blank, schemaToJson, schemaToJson]
      rcases out_cases (ih i encl known) with ⟨e1, e2⟩ | ⟨j, j', k, e1, e2, hj⟩
      · rw [e1, e2]
      · rw [e1, e2]
        show some (_, _) = some (_, _)
        rw [(((Alike.nil.insert "type" (rfl : part _ (.str "array") = _)).insert "items"
          (show part _ j = part _ j' by
            rw [part_schema (by decide), part_schema (by decide), hj])).insertAll ps).undoc]
    | map i ps =>
      rw [Schema.blank, schemaToJson, schemaToJson]
      rcases out_cases (ih i encl known) with ⟨e1, e2⟩ | ⟨j, j', k, e1, e2, hj⟩
      · rw [e1, e2]
      · rw [e1, e2]
        show some (_, _) = some (_, _)
        rw [(((Alike.nil.insert "type" (rfl : part _ (.str "map") = _)).insert "values"
          (show part _ j = part _ j' by
            rw [part_schema (by decide), part_schema (by decide), hj])).insertAll ps).undoc]
    | union ts b =>
      rw [Schema.blank, schemaToJson, schemaToJson]
      rw [blankSchemas_map]
      rcases outs_cases (schemas_blank
          (ser := fun s k => schemaToJson (blankTable lk) n s encl k)
          (ser' := fun s k => schemaToJson lk n s encl k) (fun s k => ih s encl k) ts known) with
        ⟨e1, e2⟩ | ⟨l, l', k', e1, e2, hl⟩
      · rw [e1, e2]
      · rw [e1, e2]
        show some (undoc (.arr l'), _) = some (undoc (.arr l), _)
        rw [undoc, undoc, undocList_map, undocList_map, hl]
    | ref name ns ps sp =>
      rw [Schema.blank, schemaToJson, schemaToJson]
      split
      · rfl
      · rw [lookup_blank]
        cases Lookup.get? lk (makeFullName name ns) with
        | none => rfl
        | some r => exact ih r _ _
    | _ => rfl

theorem messageObj_alike (m : Message) {req req' : List Json} {resp resp' : Json}
    {errs errs' : Option (List Json)} (h1 : req.map undoc = req'.map undoc)
    (h2 : undoc resp = undoc resp')
    (h3 : errs.map (List.map undoc) = errs'.map (List.map undoc)) :
    Alike (messageObj m req resp errs) (messageObj m.blank req' resp' errs') := by
  obtain ⟨d, ps, rq, rs, es, ow⟩ := m
  unfold messageObj Message.blank
  dsimp only
  have h0 := (((Alike.nil.docs d).insertAll ps).insert "request" (part_list (by decide) h1)).insert
    "response" (show part _ resp = part _ resp' by
      rw [part_schema (by decide), part_schema (by decide), h2])
  cases errs with
  | none =>
    cases errs' with
    | none =>
      dsimp only
      split
      · exact h0.insert _ rfl
      · exact h0
    | some e => cases h3
  | some e =>
    cases errs' with
    | none => cases h3
    | some e' =>
      injection h3 with h3
      have h5 := h0.insert "errors" (part_list (by decide) h3)
      dsimp only
      split
      · exact h5.insert _ rfl
      · exact h5

theorem messageToJson_blank (lk : Lookup) (n : Nat) (encl : Option String) (m : Message)
    (known : Known) :
    (messageToJson (blankTable lk) n encl m.blank known).map undocOut =
      (messageToJson lk n encl m known).map undocOut := by
  obtain ⟨d, ps, req, resp, errs, ow⟩ := m
  unfold messageToJson Message.blank
  dsimp only
  rcases outs_cases (fields_blank
      (ser := fun s k => schemaToJson (blankTable lk) n s encl k)
      (ser' := fun s k => schemaToJson lk n s encl k)
      (fun s k => schemaToJson_blank lk n s encl k) req known) with
    ⟨e1, e2⟩ | ⟨l, l', k, e1, e2, hl⟩
  · rw [e1, e2]
  · rw [e1, e2]
    dsimp only
    rcases out_cases (schemaToJson_blank lk n resp encl k) with ⟨e3, e4⟩ | ⟨j, j', k', e3, e4, hj⟩
    · rw [e3, e4]
    · rw [e3, e4]
      dsimp only
      cases errs with
      | none =>
        exact congrArg (fun j => some (j, k')) (messageObj_alike ⟨d, ps, req, resp, none, ow⟩ hl hj
          (rfl : Option.map (List.map undoc) none = Option.map (List.map undoc) none)).undoc.symm
      | some es =>
        dsimp only [Option.map_some]
        rcases outs_cases (schemas_blank
            (ser := fun s k => schemaToJson (blankTable lk) n s encl k)
            (ser' := fun s k => schemaToJson lk n s encl k)
            (fun s k => schemaToJson_blank lk n s encl k) es k') with
          ⟨e5, e6⟩ | ⟨x, x', k'', e5, e6, hx⟩
        · rw [e5, e6]
        · rw [e5, e6]
          exact congrArg (fun j => some (j, k'')) (messageObj_alike ⟨d, ps, req, resp, some es, ow⟩
            (errs := some x) (errs' := some x') hl hj
            (congrArg some hx : Option.map (List.map undoc) (some x) =
              Option.map (List.map undoc) (some x'))).undoc.symm

theorem isStr_undoc (j : Json) : (undoc j).isStr = j.isStr := by
  cases j <;> simp [undoc, Json.isStr]

theorem filter_undoc (l : List Json) :
    (l.filter fun v => !v.isStr).map undoc = (l.map undoc).filter fun v => !v.isStr := by
  rw [List.filter_map]
  congr 1
  apply List.filter_congr
  intro j _
  rw [Function.comp, isStr_undoc]

theorem undocValues_insert (k : String) (v : Json) (m : JMap) :
    undocValues (JMap.insert k v m) = JMap.insert k (undoc v) (undocValues m) := by
  induction m with
  | nil => rfl
  | cons a m ih =>
    obtain ⟨k', v'⟩ := a
    rw [JMap.insert, undocValues, JMap.insert]
    split
    · rfl
    · split
      · rfl
      · rw [undocValues, ih]

/-- A message by name, up to `doc`. -/
def undocMessage (x : String × Json) : String × Json := (x.1, undoc x.2)

theorem undocValues_insertAll (ms : List (String × Json)) (m : JMap) :
    undocValues (JMap.insertAll m ms) = JMap.insertAll (undocValues m) (ms.map undocMessage) := by
  unfold JMap.insertAll
  induction ms generalizing m with
  | nil => rfl
  | cons x ms ih =>
    rw [List.foldl_cons, ih, undocValues_insert, List.map_cons, List.foldl_cons]
    rfl

theorem protocolObj_alike (p : Protocol) {ts ts' : List Json} {ms ms' : List (String × Json)}
    (h1 : ts.map undoc = ts'.map undoc) (h2 : ms.map undocMessage = ms'.map undocMessage) :
    Alike (protocolObj p ts ms) (protocolObj p.blank ts' ms') := by
  obtain ⟨name, ns, d, ps, tys, msgs⟩ := p
  unfold protocolObj Protocol.blank
  dsimp only
  have hm : part "messages" (.obj (JMap.insertAll [] ms)) =
      part "messages" (.obj (JMap.insertAll [] ms')) := by
    show undocMessages _ = undocMessages _
    rw [undocMessages, undocMessages, undocValues_insertAll, undocValues_insertAll, h2]
  have ht : (ts.filter fun v => !v.isStr).map undoc = (ts'.filter fun v => !v.isStr).map undoc := by
    rw [filter_undoc, filter_undoc, h1]
  have h0 : Alike (JMap.insert "protocol" (.str name) []) (JMap.insert "protocol" (.str name) []) :=
    Alike.nil.insert _ rfl
  have h3 : ∀ {x x' : JMap}, Alike x x' →
      Alike (JMap.insert "messages" (.obj (JMap.insertAll [] ms))
          (JMap.insert "types" (.arr (ts.filter fun v => !v.isStr)) (JMap.insertAll x ps)))
        (JMap.insert "messages" (.obj (JMap.insertAll [] ms'))
          (JMap.insert "types" (.arr (ts'.filter fun v => !v.isStr)) (JMap.insertAll x' ps))) :=
    fun h => ((h.insertAll ps).insert _ (part_list (by decide) ht)).insert _ hm
  refine h3 (Alike.docs ?_ d)
  cases ns with
  | none => exact h0
  | some n =>
    dsimp only
    split
    · exact h0
    · exact h0.insert _ rfl

theorem protocolToJson_blank (n : Nat) (p : Protocol) :
    (protocolToJson n p.blank).map undoc = (protocolToJson n p).map undoc := by
  unfold protocolToJson
  show Option.map undoc (protocolToJson n p.blank) = _
  unfold protocolToJson
  have e1 : p.blank.types = p.types.map Schema.blank := rfl
  have e2 : p.blank.messages = p.messages.map blankMessage := rfl
  have e3 : p.blank.ns = p.ns := rfl
  rw [e1, e2, e3, buildLookup_blank]
  dsimp only
  rcases outs_cases (schemas_blank
      (ser := fun s k => schemaToJson (blankTable (buildLookup p.types p.ns)) n s p.ns k)
      (ser' := fun s k => schemaToJson (buildLookup p.types p.ns) n s p.ns k)
      (fun s k => schemaToJson_blank _ n s _ k) p.types []) with ⟨e1, e2⟩ | ⟨l, l', k, e1, e2, hl⟩
  · rw [e1, e2]
  · rw [e1, e2]
    dsimp only
    have hm := mapAccum_on undocMessage
      (f' := fun (nm : String × Message) k =>
        (messageToJson (blankTable (buildLookup p.types p.ns)) n p.ns (blankMessage nm).2 k).map
          fun jk => (((blankMessage nm).1, jk.1), jk.2))
      (f := fun (nm : String × Message) k =>
        (messageToJson (buildLookup p.types p.ns) n p.ns nm.2 k).map
          fun jk => ((nm.1, jk.1), jk.2)) (l := p.messages) (by
        intro nm k
        have h := congrArg (Option.map fun r : Json × Known => ((nm.1, r.1), r.2))
          (messageToJson_blank (buildLookup p.types p.ns) n p.ns nm.2 k)
        rw [Option.map_map, Option.map_map] at h
        rw [Option.map_map, Option.map_map]
        exact h) k
    rw [mapAccum_map]
    revert hm
    generalize mapAccum (fun (nm : String × Message) k =>
        (messageToJson (blankTable (buildLookup p.types p.ns)) n p.ns (blankMessage nm).2 k).map
          fun jk => (((blankMessage nm).1, jk.1), jk.2)) p.messages k = x'
    generalize mapAccum (fun (nm : String × Message) k =>
        (messageToJson (buildLookup p.types p.ns) n p.ns nm.2 k).map
          fun jk => ((nm.1, jk.1), jk.2)) p.messages k = x
    intro hm
    cases x with
    | none =>
      cases x' with
      | none => rfl
      | some r => cases hm
    | some r =>
      cases x' with
      | none => cases hm
      | some r' =>
        injection hm with hm
        have h1 : r'.1.map undocMessage = r.1.map undocMessage := congrArg Prod.fst hm
        show some (undoc (.obj _)) = some (undoc (.obj _))
        rw [(protocolObj_alike p hl h1.symm).undoc]

theorem extractSchemas_blank (n : Nat) (types : List Schema) :
    (extractSchemas n (types.map Schema.blank)).map (List.map undocMessage) =
      (extractSchemas n types).map (List.map undocMessage) := by
  unfold extractSchemas
  dsimp only
  rw [buildLookup_blank]
  generalize buildLookup types none = lk
  induction types with
  | nil => rfl
  | cons s ss ih =>
    rw [List.map_cons, extractSchemas.go, extractSchemas.go, name_blank]
    cases s.name? with
    | none => exact ih
    | some name =>
      dsimp only
      rcases out_cases (schemaToJson_blank lk n s none []) with ⟨e1, e2⟩ | ⟨j, j', k, e1, e2, hj⟩
      · rw [e1, e2]
      · rw [e1, e2]
        dsimp only
        rw [Option.map_map, Option.map_map]
        have e : ∀ j, (List.map undocMessage ∘ fun x => (name, j) :: x) =
            (fun x => (name, undoc j) :: x) ∘ List.map undocMessage := fun j => rfl
        rw [e, e, ← Option.map_map, ← Option.map_map, ih, hj]

end Avdl.MuteOutput
