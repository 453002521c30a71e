import Verif.Spec.AvroJson
import Verif.Lemmas.AvroJson
/-! # Documents have at most one meaning -/

namespace Avdl
open Spec

theorem Spec.OptText.unique {obj : JMap} {k : String} {a b : Option String} (h : OptText obj k a)
    (h' : OptText obj k b) : a = b := by
  cases h <;> cases h' <;> simp_all

theorem strs_inj : ∀ {a b : List String}, a.map Json.str = b.map Json.str → a = b
  | [], [], _ => rfl
  | [], _ :: _, h => by simp at h
  | _ :: _, [], h => by simp at h
  | x :: a, y :: b, h => by
      simp only [List.map_cons, List.cons.injEq, Json.str.injEq] at h
      rw [h.1, strs_inj h.2]

theorem Spec.OptTexts.unique {obj : JMap} {k : String} {a b : List String} (h : OptTexts obj k a)
    (h' : OptTexts obj k b) : a = b := by
  cases h with
  | absent h =>
    cases h' with
    | absent => rfl
    | present h' => rw [h] at h'; cases h'
  | present h =>
    cases h' with
    | absent h' => rw [h] at h'; cases h'
    | present h' =>
      rw [h] at h'
      injection h' with h'
      injection h' with h'
      exact strs_inj h'

theorem Spec.OrderDoc.unique {obj : JMap} {a b : Option FieldOrder} (h : OrderDoc obj a)
    (h' : OrderDoc obj b) : a = b := by
  cases h <;> cases h' <;> simp_all

theorem logicalName_inj {a b : LogicalType} (ha : ∀ p s, a ≠ .decimal p s)
    (hb : ∀ p s, b ≠ .decimal p s) (h : a.name = b.name) : a = b := by
  cases a <;> cases b <;> first
    | rfl
    | exact absurd rfl (ha _ _)
    | exact absurd rfl (hb _ _)
    | (exfalso; revert h; simp only [LogicalType.name]; decide)

theorem Spec.LogicalDoc.unique {obj : JMap} {p : Prim} {a b : LogicalType} (h : LogicalDoc obj p a)
    (h' : LogicalDoc obj p b) : a = b := by
  have dec : ∀ {lt : LogicalType}, (∀ p s, lt ≠ .decimal p s) → lt.name ≠ "decimal" := by
    intro lt h
    cases lt <;> first | exact absurd rfl (h _ _) | (simp only [LogicalType.name]; decide)
  cases h with
  | simple h1 _ h2 =>
    cases h' with
    | simple h3 _ h4 =>
      rw [h1] at h3
      injection h3 with h3
      injection h3 with h3
      exact logicalName_inj h2 h4 h3
    | decimal h3 =>
      rw [h1] at h3
      injection h3 with h3
      injection h3 with h3
      exact absurd h3 (dec h2)
  | decimal h1 _ h2 _ _ hs =>
    cases h' with
    | simple h3 _ h4 =>
      rw [h1] at h3
      injection h3 with h3
      injection h3 with h3
      exact absurd h3.symm (dec h4)
    | decimal _ _ h3 _ _ hs' =>
      rw [h2] at h3
      have h3' := h3
      simp only [Option.some.injEq, Json.num.injEq, JNum.int.injEq, Int.natCast_inj] at h3'
      subst h3'
      congr 1
      rcases hs with ⟨a1, a2⟩ | a1 <;> rcases hs' with ⟨b1, b2⟩ | b1
      · rw [a2, b2]
      · rw [a1] at b1; cases b1
      · rw [a1] at b1; cases b1
      · rw [a1] at b1
        simpa [Int.natCast_inj] using b1

theorem Spec.DocName.unique {d : Option String} {obj : JMap} {n n' : String} {ns ns' : Option String}
    (h : DocName d obj n ns) (h' : DocName d obj n' ns') : n = n' ∧ ns = ns' := by
  have dot : ∀ {pre name raw : String}, DotFree raw → raw ≠ pre ++ "." ++ name := by
    intro pre name raw h1 h2
    apply h1
    rw [h2]
    simp [String.toList_append]
  have split : ∀ {p n p' n' : String}, DotFree n → DotFree n' →
      p ++ "." ++ n = p' ++ "." ++ n' → n = n' ∧ p = p' := by
    intro p n p' n' h1 h2 h3
    have e1 := splitFullName_dotted (pre := p) h1
    rw [h3, splitFullName_dotted h2] at e1
    simp only [Prod.mk.injEq, Option.some.injEq] at e1
    exact ⟨e1.1.symm, e1.2.symm⟩
  cases h with
  | dotted h1 h2 =>
    cases h' with
    | dotted h3 h4 =>
      rw [h1] at h3
      injection h3 with h3
      injection h3 with h3
      obtain ⟨e1, e2⟩ := split h2 h4 h3
      exact ⟨e1, by rw [e2]⟩
    | given h3 h4 => rw [h1] at h3; injection h3 with h3; injection h3 with h3; exact absurd h3.symm (dot h4)
    | inherited h3 h4 => rw [h1] at h3; injection h3 with h3; injection h3 with h3; exact absurd h3.symm (dot h4)
  | given h1 h2 hn =>
    cases h' with
    | dotted h3 h4 => rw [h1] at h3; injection h3 with h3; injection h3 with h3; exact absurd h3 (dot h2)
    | given h3 h4 hn' =>
      rw [h1] at h3; rw [hn] at hn'
      simp_all
    | inherited h3 h4 hn' => rw [hn] at hn'; cases hn'
  | inherited h1 h2 hn =>
    cases h' with
    | dotted h3 h4 => rw [h1] at h3; injection h3 with h3; injection h3 with h3; exact absurd h3 (dot h2)
    | given h3 h4 hn' => rw [hn] at hn'; cases hn'
    | inherited h3 h4 hn' => rw [h1] at h3; simp_all

theorem Spec.ReferenceName.unique {d : Option String} {s n n' : String} {ns ns' : Option String}
    (hp : s ∉ primitives) (h : ReferenceName d s n ns) (h' : ReferenceName d s n' ns') :
    n = n' ∧ ns = ns' := by
  have := (stringToSchema_names hp h).symm.trans (stringToSchema_names hp h')
  simp only [Schema.ref.injEq] at this
  exact ⟨this.1, this.2.1⟩

theorem asStr_mem (p : Prim) : p.asStr ∈ primitives := by cases p <;> decide

theorem asStr_inj {p q : Prim} (h : p.asStr = q.asStr) : p = q := by
  have := congrArg Prim.ofStr? h
  rw [ofStr?_asStr, ofStr?_asStr] at this
  injection this

theorem type_clash {obj : JMap} {a b : String} (h : obj.get? "type" = some (.str a))
    (h' : obj.get? "type" = some (.str b)) : a = b := by
  rw [h] at h'
  injection h' with h'
  injection h'

/-! ## What a document with a given type means -/

theorem type_prim_clash {obj : JMap} {a : String} {p : Prim} (h : obj.get? "type" = some (.str a))
    (ha : a ∉ primitives) (h' : obj.get? "type" = some (.str p.asStr)) : False :=
  ha (type_clash h h' ▸ asStr_mem p)

theorem doc_record_inv {d : Option String} {obj : JMap} {s : Schema}
    (ht : obj.get? "type" = some (.str "record")) (h : SchemaDoc d (.obj obj) s) :
    ∃ name ns doc l fs al, DocName d obj name ns ∧ OptText obj "doc" doc ∧
      obj.get? "fields" = some (.arr l) ∧ FieldDocs ns l fs ∧ OptTexts obj "aliases" al ∧
      s = .record name ns doc fs false al
        (otherMembers obj ["type", "name", "namespace", "doc", "fields", "aliases"]) := by
  cases h with
  | record h1 h2 h3 h4 h5 h6 => exact ⟨_, _, _, _, _, _, h2, h3, h4, h5, h6, rfl⟩
  | error h1 => exact absurd (type_clash ht h1) (by decide)
  | enum h1 => exact absurd (type_clash ht h1) (by decide)
  | fixed h1 => exact absurd (type_clash ht h1) (by decide)
  | array h1 => exact absurd (type_clash ht h1) (by decide)
  | map h1 => exact absurd (type_clash ht h1) (by decide)
  | bare h1 => exact (type_prim_clash ht (by decide) h1).elim
  | annotated h1 => exact (type_prim_clash ht (by decide) h1).elim
  | logical h1 => exact (type_prim_clash ht (by decide) h1).elim

theorem doc_error_inv {d : Option String} {obj : JMap} {s : Schema}
    (ht : obj.get? "type" = some (.str "error")) (h : SchemaDoc d (.obj obj) s) :
    ∃ name ns doc l fs al, DocName d obj name ns ∧ OptText obj "doc" doc ∧
      obj.get? "fields" = some (.arr l) ∧ FieldDocs ns l fs ∧ OptTexts obj "aliases" al ∧
      s = .record name ns doc fs true al
        (otherMembers obj ["type", "name", "namespace", "doc", "fields", "aliases"]) := by
  cases h with
  | record h1 => exact absurd (type_clash ht h1) (by decide)
  | error h1 h2 h3 h4 h5 h6 => exact ⟨_, _, _, _, _, _, h2, h3, h4, h5, h6, rfl⟩
  | enum h1 => exact absurd (type_clash ht h1) (by decide)
  | fixed h1 => exact absurd (type_clash ht h1) (by decide)
  | array h1 => exact absurd (type_clash ht h1) (by decide)
  | map h1 => exact absurd (type_clash ht h1) (by decide)
  | bare h1 => exact (type_prim_clash ht (by decide) h1).elim
  | annotated h1 => exact (type_prim_clash ht (by decide) h1).elim
  | logical h1 => exact (type_prim_clash ht (by decide) h1).elim

theorem doc_enum_inv {d : Option String} {obj : JMap} {s : Schema}
    (ht : obj.get? "type" = some (.str "enum")) (h : SchemaDoc d (.obj obj) s) :
    ∃ (name : String) (ns doc : Option String) (symbols : List String)
      (dflt : Option String) (al : List String), DocName d obj name ns ∧ OptText obj "doc" doc ∧
      obj.get? "symbols" = some (.arr (symbols.map .str)) ∧ OptText obj "default" dflt ∧
      OptTexts obj "aliases" al ∧ s = .enum name ns doc symbols dflt al
        (otherMembers obj ["type", "name", "namespace", "doc", "symbols", "default", "aliases"]) := by
  cases h with
  | record h1 => exact absurd (type_clash ht h1) (by decide)
  | error h1 => exact absurd (type_clash ht h1) (by decide)
  | enum h1 h2 h3 h4 h5 h6 => exact ⟨_, _, _, _, _, _, h2, h3, h4, h5, h6, rfl⟩
  | fixed h1 => exact absurd (type_clash ht h1) (by decide)
  | array h1 => exact absurd (type_clash ht h1) (by decide)
  | map h1 => exact absurd (type_clash ht h1) (by decide)
  | bare h1 => exact (type_prim_clash ht (by decide) h1).elim
  | annotated h1 => exact (type_prim_clash ht (by decide) h1).elim
  | logical h1 => exact (type_prim_clash ht (by decide) h1).elim

theorem doc_fixed_inv {d : Option String} {obj : JMap} {s : Schema}
    (ht : obj.get? "type" = some (.str "fixed")) (h : SchemaDoc d (.obj obj) s) :
    ∃ (name : String) (ns doc : Option String) (size : Nat) (al : List String),
      DocName d obj name ns ∧ OptText obj "doc" doc ∧ obj.get? "size" = some (.num (.int size)) ∧
      OptTexts obj "aliases" al ∧ s = .fixed name ns doc size al
        (otherMembers obj ["type", "name", "namespace", "doc", "size", "aliases"]) := by
  cases h with
  | record h1 => exact absurd (type_clash ht h1) (by decide)
  | error h1 => exact absurd (type_clash ht h1) (by decide)
  | enum h1 => exact absurd (type_clash ht h1) (by decide)
  | fixed h1 h2 h3 h4 _ h5 => exact ⟨_, _, _, _, _, h2, h3, h4, h5, rfl⟩
  | array h1 => exact absurd (type_clash ht h1) (by decide)
  | map h1 => exact absurd (type_clash ht h1) (by decide)
  | bare h1 => exact (type_prim_clash ht (by decide) h1).elim
  | annotated h1 => exact (type_prim_clash ht (by decide) h1).elim
  | logical h1 => exact (type_prim_clash ht (by decide) h1).elim

theorem doc_array_inv {d : Option String} {obj : JMap} {s : Schema}
    (ht : obj.get? "type" = some (.str "array")) (h : SchemaDoc d (.obj obj) s) :
    ∃ j t, obj.get? "items" = some j ∧ SchemaDoc d j t ∧
      s = .array t (otherMembers obj ["type", "items"]) := by
  cases h with
  | record h1 => exact absurd (type_clash ht h1) (by decide)
  | error h1 => exact absurd (type_clash ht h1) (by decide)
  | enum h1 => exact absurd (type_clash ht h1) (by decide)
  | fixed h1 => exact absurd (type_clash ht h1) (by decide)
  | array h1 h2 h3 => exact ⟨_, _, h2, h3, rfl⟩
  | map h1 => exact absurd (type_clash ht h1) (by decide)
  | bare h1 => exact (type_prim_clash ht (by decide) h1).elim
  | annotated h1 => exact (type_prim_clash ht (by decide) h1).elim
  | logical h1 => exact (type_prim_clash ht (by decide) h1).elim

theorem doc_map_inv {d : Option String} {obj : JMap} {s : Schema}
    (ht : obj.get? "type" = some (.str "map")) (h : SchemaDoc d (.obj obj) s) :
    ∃ j t, obj.get? "values" = some j ∧ SchemaDoc d j t ∧
      s = .map t (otherMembers obj ["type", "values"]) := by
  cases h with
  | record h1 => exact absurd (type_clash ht h1) (by decide)
  | error h1 => exact absurd (type_clash ht h1) (by decide)
  | enum h1 => exact absurd (type_clash ht h1) (by decide)
  | fixed h1 => exact absurd (type_clash ht h1) (by decide)
  | array h1 => exact absurd (type_clash ht h1) (by decide)
  | map h1 h2 h3 => exact ⟨_, _, h2, h3, rfl⟩
  | bare h1 => exact (type_prim_clash ht (by decide) h1).elim
  | annotated h1 => exact (type_prim_clash ht (by decide) h1).elim
  | logical h1 => exact (type_prim_clash ht (by decide) h1).elim

theorem doc_prim_inv {d : Option String} {obj : JMap} {s : Schema} {p : Prim}
    (ht : obj.get? "type" = some (.str p.asStr)) (h : SchemaDoc d (.obj obj) s) :
    (otherMembers obj ["type"] = [] ∧ s = .prim p) ∨
    (otherMembers obj ["type"] ≠ [] ∧ (∀ lt, ¬ LogicalDoc obj p lt) ∧
      s = .annotated p (otherMembers obj ["type"])) ∨
    ∃ lt, LogicalDoc obj p lt ∧ s = .logical lt (otherMembers obj ("type" :: Spec.logicalKeys lt)) := by
  cases h with
  | record h1 => exact (type_prim_clash h1 (by decide) ht).elim
  | error h1 => exact (type_prim_clash h1 (by decide) ht).elim
  | enum h1 => exact (type_prim_clash h1 (by decide) ht).elim
  | fixed h1 => exact (type_prim_clash h1 (by decide) ht).elim
  | array h1 => exact (type_prim_clash h1 (by decide) ht).elim
  | map h1 => exact (type_prim_clash h1 (by decide) ht).elim
  | bare h1 h2 =>
    have := asStr_inj (type_clash ht h1)
    subst this
    exact .inl ⟨h2, rfl⟩
  | annotated h1 h2 h3 =>
    have := asStr_inj (type_clash ht h1)
    subst this
    exact .inr (.inl ⟨h2, h3, rfl⟩)
  | logical h1 h2 =>
    have := asStr_inj (type_clash ht h1)
    subst this
    exact .inr (.inr ⟨_, h2, rfl⟩)

theorem otherMembers_logical {obj : JMap} {p : Prim} {lt : LogicalType} (h : LogicalDoc obj p lt) :
    otherMembers obj ["type"] ≠ [] := by
  have hl : ∃ v, obj.get? "logicalType" = some v := by cases h <;> exact ⟨_, ‹_›⟩
  obtain ⟨v, hv⟩ := hl
  have hm := JMap.mem_of_get? hv
  intro he
  have : ("logicalType", v) ∈ otherMembers obj ["type"] :=
    List.mem_filter.2 ⟨hm, rfl⟩
  rw [he] at this
  cases this

theorem get_unique {obj : JMap} {k : String} {a b : Json} (h : obj.get? k = some a)
    (h' : obj.get? k = some b) : a = b := by
  rw [h] at h'
  injection h'

mutual
theorem schemaDoc_unique : ∀ {d : Option String} {j : Json} {s s' : Schema}, SchemaDoc d j s →
    SchemaDoc d j s' → s = s'
  | _, _, _, _, .prim (p := p), h' => by
      generalize hs : p.asStr = s at h'
      cases h' with
      | prim => rw [asStr_inj hs]
      | ref h1 => exact absurd (hs ▸ asStr_mem p) h1
  | _, _, _, _, .ref h1 h2, h' => by
      cases h' with
      | prim => exact absurd (asStr_mem _) h1
      | ref _ h3 =>
        obtain ⟨e1, e2⟩ := h2.unique h1 h3
        rw [e1, e2]
  | _, _, _, _, .union h, h' => by
      cases h' with
      | union h2 => rw [schemaDocs_unique h h2]
  | _, _, _, _, .record ht h1 h2 h3 h4 h5, h' => by
      obtain ⟨_, _, _, _, _, _, i1, i2, i3, i4, i5, rfl⟩ := doc_record_inv ht h'
      obtain ⟨e1, e2⟩ := h1.unique i1
      subst e1 e2
      have := get_unique h3 i3
      injection this with this
      subst this
      rw [h2.unique i2, h5.unique i5, fieldDocs_unique h4 i4]
  | _, _, _, _, .error ht h1 h2 h3 h4 h5, h' => by
      obtain ⟨_, _, _, _, _, _, i1, i2, i3, i4, i5, rfl⟩ := doc_error_inv ht h'
      obtain ⟨e1, e2⟩ := h1.unique i1
      subst e1 e2
      have := get_unique h3 i3
      injection this with this
      subst this
      rw [h2.unique i2, h5.unique i5, fieldDocs_unique h4 i4]
  | _, _, _, _, .enum ht h1 h2 h3 h4 h5, h' => by
      obtain ⟨_, _, _, _, _, _, i1, i2, i3, i4, i5, rfl⟩ := doc_enum_inv ht h'
      obtain ⟨e1, e2⟩ := h1.unique i1
      subst e1 e2
      have := get_unique h3 i3
      injection this with this
      rw [h2.unique i2, h5.unique i5, h4.unique i4, strs_inj this]
  | _, _, _, _, .fixed ht h1 h2 h3 h4 h5, h' => by
      obtain ⟨_, _, _, _, _, i1, i2, i3, i5, rfl⟩ := doc_fixed_inv ht h'
      obtain ⟨e1, e2⟩ := h1.unique i1
      subst e1 e2
      have := get_unique h3 i3
      simp only [Json.num.injEq, JNum.int.injEq, Int.natCast_inj] at this
      rw [h2.unique i2, h5.unique i5, this]
  | _, _, _, _, .array ht h1 h2, h' => by
      obtain ⟨_, _, i1, i2, rfl⟩ := doc_array_inv ht h'
      have := get_unique h1 i1
      subst this
      rw [schemaDoc_unique h2 i2]
  | _, _, _, _, .map ht h1 h2, h' => by
      obtain ⟨_, _, i1, i2, rfl⟩ := doc_map_inv ht h'
      have := get_unique h1 i1
      subst this
      rw [schemaDoc_unique h2 i2]
  | _, _, _, _, .bare ht h1, h' => by
      rcases doc_prim_inv ht h' with ⟨_, rfl⟩ | ⟨h, _⟩ | ⟨lt, h, _⟩
      · rfl
      · exact absurd h1 h
      · exact absurd h1 (otherMembers_logical h)
  | _, _, _, _, .annotated ht h1 h2, h' => by
      rcases doc_prim_inv ht h' with ⟨h, _⟩ | ⟨_, _, rfl⟩ | ⟨lt, h, _⟩
      · exact absurd h h1
      · rfl
      · exact absurd h (h2 lt)
  | _, _, _, _, .logical ht h1, h' => by
      rcases doc_prim_inv ht h' with ⟨h, _⟩ | ⟨_, h, _⟩ | ⟨lt, h, rfl⟩
      · exact absurd h (otherMembers_logical h1)
      · exact absurd h1 (h _)
      · rw [h1.unique h]
theorem schemaDocs_unique : ∀ {d : Option String} {l : List Json} {ss ss' : List Schema},
    SchemaDocs d l ss → SchemaDocs d l ss' → ss = ss'
  | _, _, _, _, .nil, h' => by cases h'; rfl
  | _, _, _, _, .cons h1 h2, h' => by
      cases h' with
      | cons i1 i2 => rw [schemaDoc_unique h1 i1, schemaDocs_unique h2 i2]
theorem fieldDocs_unique : ∀ {d : Option String} {l : List Json} {fs fs' : List Field},
    FieldDocs d l fs → FieldDocs d l fs' → fs = fs'
  | _, _, _, _, .nil, h' => by cases h'; rfl
  | _, _, _, _, .cons hn ht h hd ho ha h2, h' => by
      cases h' with
      | cons hn' ht' i hd' ho' ha' i2 =>
        have e1 := get_unique hn hn'
        injection e1 with e1
        have e2 := get_unique ht ht'
        subst e1 e2
        rw [schemaDoc_unique h i, hd.unique hd', ho.unique ho', ha.unique ha', fieldDocs_unique h2 i2]
end

theorem messageDoc_unique {d : Option String} {j : Json} {m m' : Message} (h : MessageDoc d j m)
    (h' : MessageDoc d j m') : m = m' := by
  cases h with
  | mk a1 a2 a3 a4 a5 a6 a7 =>
    cases h' with
    | mk b1 b2 b3 b4 b5 b6 b7 =>
      have e1 := get_unique a2 b2
      injection e1 with e1
      have e2 := get_unique a4 b4
      subst e1 e2
      have e3 := fieldDocs_unique a3 b3
      have e4 := schemaDoc_unique a5 b5
      have e5 := a1.unique b1
      subst e3 e4 e5
      congr 1
      · cases a6 with
        | absent h =>
          cases b6 with
          | absent => rfl
          | present h' => rw [h] at h'; cases h'
        | present h hs =>
          cases b6 with
          | absent h' => rw [h] at h'; cases h'
          | present h' hs' =>
            have e := get_unique h h'
            injection e with e
            subst e
            rw [schemaDocs_unique hs hs']
      · cases a7 with
        | absent h =>
          cases b7 with
          | absent => rfl
          | present h' => rw [h] at h'; cases h'
        | present h =>
          cases b7 with
          | absent h' => rw [h] at h'; cases h'
          | present h' =>
            have e := get_unique h h'
            injection e

theorem messageDocs_unique {d : Option String} : ∀ {l : JMap} {ms ms' : List (String × Message)},
    MessageDocs d l ms → MessageDocs d l ms' → ms = ms'
  | _, _, _, .nil, h' => by cases h'; rfl
  | _, _, _, .cons h1 h2, h' => by
      cases h' with
      | cons i1 i2 => rw [messageDoc_unique h1 i1, messageDocs_unique h2 i2]

theorem protocolDoc_unique {j : Json} {ss ss' : List Schema} {ms ms' : List (String × Message)}
    (h : ProtocolDoc j ss ms) (h' : ProtocolDoc j ss' ms') : ss = ss' ∧ ms = ms' := by
  cases h with
  | mk a1 a2 a3 =>
    cases h' with
    | mk b1 b2 b3 =>
      have e := a1.unique b1
      subst e
      constructor
      · rcases a2 with ⟨g, rfl⟩ | ⟨l, g, hs⟩ <;> rcases b2 with ⟨g', rfl⟩ | ⟨l', g', hs'⟩
        · rfl
        · rw [g] at g'; cases g'
        · rw [g] at g'; cases g'
        · have e := get_unique g g'
          injection e with e
          subst e
          exact schemaDocs_unique hs hs'
      · rcases a3 with ⟨g, rfl⟩ | ⟨l, g, hs⟩ <;> rcases b3 with ⟨g', rfl⟩ | ⟨l', g', hs'⟩
        · rfl
        · rw [g] at g'; cases g'
        · rw [g] at g'; cases g'
        · have e := get_unique g g'
          injection e with e
          subst e
          exact messageDocs_unique hs hs'

end Avdl
