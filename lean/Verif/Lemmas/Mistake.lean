import Verif.Spec.Mistake
import Verif.Lemmas.AcceptDecls
/-!
# Which error the reader reports: annotations and types
-/

namespace Avdl
open W Spec

/-- The errors of a step, whatever happened before. -/
def Rejects {α : Type} (m : W α) (F : Fault → Prop) : Prop :=
  ∀ l, (∀ e, m l = .error e → F e) ∧ ∀ e, F e → ∃ e', m l = .error e' ∧ SameMistake e e'

namespace Rejects

theorem pure {α : Type} {a : α} : Rejects (W.pure a) fun _ => False :=
  fun _ => ⟨fun _ h => (by cases h), fun _ h => h.elim⟩

theorem congr {α : Type} {m : W α} {F G : Fault → Prop} (h : Rejects m F)
    (hg : ∀ e, F e ↔ G e) : Rejects m G :=
  fun l => ⟨fun e he => (hg e).mp ((h l).1 e he), fun e he => (h l).2 e ((hg e).mpr he)⟩

theorem bind {α β : Type} {m : W α} {f : α → W β} {P : Prop} {F G : Fault → Prop}
    {R : α → Prop} (hm : Rejects m F) (ha : Accepts m P) (hr : Post m R)
    (hf : ∀ a, R a → Rejects (f a) G) : Rejects (W.bind m f) fun e => F e ∨ P ∧ G e := by
  intro l
  simp only [W.bind]
  cases hl : m l with
  | error e =>
    refine ⟨fun e' h => ?_, fun e' h => ?_⟩
    · cases h; exact .inl ((hm l).1 _ hl)
    · rcases h with h | ⟨h, -⟩
      · obtain ⟨e2, h1, h2⟩ := (hm l).2 e' h
        rw [hl] at h1; cases h1
        exact ⟨_, rfl, h2⟩
      · obtain ⟨r, h⟩ := (ha l).mpr h
        rw [hl] at h; cases h
  | ok x =>
    refine ⟨fun e h => .inr ⟨(ha l).mp ⟨x, hl⟩, (hf x.1 (hr l x.1 x.2 hl) x.2).1 e h⟩,
      fun e h => ?_⟩
    rcases h with h | ⟨-, h⟩
    · obtain ⟨e2, h1, -⟩ := (hm l).2 e h
      rw [hl] at h1; cases h1
    · exact (hf x.1 (hr l x.1 x.2 hl) x.2).2 e h

theorem lift {α : Type} {x : Except Fault α} : Rejects (W.lift x) fun e => x = .error e := by
  intro l
  cases x with
  | error e => exact ⟨fun _ h => by cases h; rfl, fun _ h => by cases h; exact ⟨_, rfl, .same⟩⟩
  | ok a => exact ⟨fun _ h => (by cases h), fun _ h => (by cases h)⟩

theorem fail {α : Type} {e0 : ReadErr} {sp : Option Span} :
    Rejects (α := α) (W.fail e0 sp) fun e => e = ⟨e0, sp⟩ :=
  fun _ => ⟨fun _ h => by cases h; rfl, fun _ h => ⟨_, rfl, h ▸ .same⟩⟩

theorem failIf {b : Bool} {e0 : ReadErr} {sp : Option Span} :
    Rejects (W.failIf b e0 sp) fun e => e = ⟨e0, sp⟩ ∧ b = true := by
  cases b with
  | false => exact pure.congr (by simp)
  | true => exact fail.congr (by simp)

theorem map {α β : Type} {m : W α} {g : α → β} {F : Fault → Prop} (hm : Rejects m F) :
    Rejects (W.bind m fun a => W.pure (g a)) F := by
  intro l
  have := hm l
  simp only [W.bind]
  cases h : m l with
  | error e => rw [h] at this; simpa using this
  | ok x => rw [h] at this; simpa [W.pure] using this

/-- A step that has only one error. -/
theorem of_accepts {α : Type} {m : W α} {P : Prop} {e0 : Fault} (h : Accepts m P)
    (ho : ∀ l e, m l = .error e → e = e0) : Rejects m fun e => e = e0 ∧ ¬ P := by
  intro l
  refine ⟨fun e he => ⟨ho l e he, fun hp => ?_⟩, ?_⟩
  · obtain ⟨r, hr⟩ := (h l).mpr hp
    rw [he] at hr; cases hr
  · rintro e ⟨rfl, hp⟩
    cases hl : m l with
    | ok r => exact absurd ((h l).mp ⟨r, hl⟩) hp
    | error e' => exact ⟨e', rfl, ho l e' hl ▸ .same⟩

/-- A step without errors. -/
theorem never {α : Type} {m : W α} (h : Accepts m True) : Rejects m fun _ => False := by
  intro l
  refine ⟨fun e he => ?_, fun e he => he.elim⟩
  obtain ⟨r, hr⟩ := (h l).mpr trivial
  rw [he] at hr; cases hr

end Rejects

theorem Spec.FirstBad.nil_iff {α : Type} {Ok : α → Prop} {Bad : α → Fault → Prop} {e : Fault} :
    FirstBad Ok Bad [] e ↔ False := ⟨fun h => (by cases h), fun h => h.elim⟩

theorem Spec.FirstBad.cons_iff {α : Type} {Ok : α → Prop} {Bad : α → Fault → Prop} {e : Fault}
    {a : α} {l : List α} :
    FirstBad Ok Bad (a :: l) e ↔ Bad a e ∨ Ok a ∧ FirstBad Ok Bad l e :=
  ⟨fun h => by
    cases h with
    | here h => exact .inl h
    | later h h' => exact .inr ⟨h, h'⟩, fun h => h.elim .here fun h => .later h.1 h.2⟩

section
variable [CharTables] [FloatTables] [CaseTables]

/-! ## Annotations -/

omit [CharTables] [CaseTables]

mutual
theorem walkJson_error : ∀ (v : JVal) (e : Fault), walkJson v = .error e ↔ JsonMistake v e
  | .null, e | .true, e | .false, e | .str _, e =>
      ⟨fun h => by simp [walkJson] at h, fun h => by cases h⟩
  | .int text _, e => by
      simp only [walkJson]
      cases ht : parseIntegerLiteral text with
      | none =>
        exact ⟨fun h => by cases h; exact .int ht, fun h => by cases h; rfl⟩
      | some i =>
        refine ⟨fun h => (by cases h), fun h => ?_⟩
        cases h with
        | int h => rw [ht] at h; cases h
  | .float text _, e => by
      simp only [walkJson]
      cases ht : parseFloatingPointLiteral text with
      | none =>
        exact ⟨fun h => by cases h; exact .float ht, fun h => by cases h; rfl⟩
      | some i =>
        refine ⟨fun h => (by cases h), fun h => ?_⟩
        cases h with
        | float h => rw [ht] at h; cases h
  | .arr l, e => by
      have ih := walkJsonList_error l e
      have : JsonMistake (.arr l) e ↔
          FirstBad (fun v => ∃ j, walkJson v = .ok j) JsonMistake l e :=
        ⟨fun h => by cases h with | item h => exact h, .item⟩
      rw [this, ← ih]
      simp only [walkJson]
      cases walkJsonList l <;> simp
  | .obj m, e => by
      have ih := walkJsonPairs_error m [] e
      have : JsonMistake (.obj m) e ↔ FirstBad (fun kv => ∃ j, walkJson kv.2 = .ok j)
          (fun kv : String × JVal => JsonMistake kv.2) m e :=
        ⟨fun h => by cases h with | entry h => exact h, .entry⟩
      rw [this, ← ih]
      simp only [walkJson]
      cases walkJsonPairs [] m <;> simp
theorem walkJsonList_error : ∀ (l : List JVal) (e : Fault), walkJsonList l = .error e ↔
      FirstBad (fun v => ∃ j, walkJson v = .ok j) JsonMistake l e
  | [], e => by simp [walkJsonList, FirstBad.nil_iff]
  | v :: vs, e => by
      have ih := walkJson_error v e
      have ihs := walkJsonList_error vs e
      rw [FirstBad.cons_iff, ← ih, ← ihs]
      simp only [walkJsonList]
      cases walkJson v with
      | error e' => simp
      | ok j => cases walkJsonList vs <;> simp
theorem walkJsonPairs_error : ∀ (m : List (String × JVal)) (acc : JMap) (e : Fault),
    walkJsonPairs acc m = .error e ↔ FirstBad (fun kv => ∃ j, walkJson kv.2 = .ok j)
      (fun kv : String × JVal => JsonMistake kv.2) m e
  | [], acc, e => by simp [walkJsonPairs, FirstBad.nil_iff]
  | (k, v) :: ps, acc, e => by
      have ih := walkJson_error v e
      rw [FirstBad.cons_iff, ← ih]
      simp only [walkJsonPairs]
      cases walkJson v with
      | error e' => simp
      | ok j => rw [← walkJsonPairs_error ps (JMap.insert (getStringFromLiteral k) j acc) e]; simp
end

/-- What can be wrong with an annotation that has a value. -/
inductive StepMistake [CaseTables] (special reserved : List String) (name : String) (v : Json)
    (sp : Option Span) : Fault → Prop
  | reserved : name ∈ reserved → name ∉ special →
      StepMistake special reserved name v sp ⟨.reservedProperty name, sp⟩
  | namespace_ : "namespace" ∈ special → name = "namespace" → (∀ s, v ≠ .str s) →
      StepMistake special reserved name v sp ⟨.namespaceNotString, sp⟩
  | aliases : "aliases" ∈ special → name = "aliases" →
      (∀ ss : List String, v ≠ .arr (ss.map .str)) →
      StepMistake special reserved name v sp ⟨.aliasesNotStrings, sp⟩
  | order : "order" ∈ special → name = "order" → (∀ s o, OrderWord s o → v ≠ .str s) →
      StepMistake special reserved name v sp ⟨.orderInvalid, sp⟩

theorem annotMistake_iff [CaseTables] {special reserved : List String} {a : Annot} {e : Fault} :
    AnnotMistake special reserved a e ↔ walkJson a.value = .error e ∨
      ∃ v, walkJson a.value = .ok v ∧
        StepMistake special reserved (identifierText a.name) v a.span e := by
  rw [walkJson_error]
  constructor
  · intro h
    cases h with
    | value h => exact .inl h
    | reserved h1 h2 h3 => exact .inr ⟨_, h1, .reserved h2 h3⟩
    | namespace_ h1 h2 h3 h4 => exact .inr ⟨_, h1, .namespace_ h2 h3 h4⟩
    | aliases h1 h2 h3 h4 => exact .inr ⟨_, h1, .aliases h2 h3 h4⟩
    | order h1 h2 h3 h4 => exact .inr ⟨_, h1, .order h2 h3 h4⟩
  · rintro (h | ⟨v, h1, h⟩)
    · exact .value h
    · cases h with
      | reserved h2 h3 => exact .reserved h1 h2 h3
      | namespace_ h2 h3 h4 => exact .namespace_ h1 h2 h3 h4
      | aliases h2 h3 h4 => exact .aliases h1 h2 h3 h4
      | order h2 h3 h4 => exact .order h1 h2 h3 h4

omit [FloatTables] in
theorem walkAliases_only [CharTables] (sp : Option Span) : ∀ (js : List Json) (l : Log) (e : Fault),
    walkAliases sp js l = .error e → e = ⟨.aliasesNotStrings, sp⟩
  | [], l, e, h => by cases h
  | .str s :: js, l, e, h => by
      have hw : ∀ {b : Prop} [Decidable b] {l : Log}, ∃ l', (if b then W.pure () else
          warn (.nonStandardAlias s sp)) l = .ok ((), l') := by
        intro b _ l
        split
        · exact ⟨_, rfl⟩
        · exact ⟨_, rfl⟩
      simp only [walkAliases, W.bind] at h
      obtain ⟨l', hl'⟩ := hw (b := (dotSegments s).all isValidAvroName = true) (l := l)
      rw [hl'] at h
      simp only at h
      cases hr : walkAliases sp js l' with
      | error e' => rw [hr] at h; cases h; exact walkAliases_only sp js l' _ hr
      | ok r => rw [hr] at h; cases h
  | .null :: _, l, e, h | .bool _ :: _, l, e, h | .num _ :: _, l, e, h | .arr _ :: _, l, e, h
  | .obj _ :: _, l, e, h => by cases h; rfl

variable [CharTables] [CaseTables]

omit [FloatTables] in
theorem annotStep_rejects (ctx : PropCtx) {special reserved : List String}
    (hsp : ∀ k, Special ctx k ↔ k ∈ special) (hr : ∀ k, k ∈ ctx.reserved ↔ k ∈ reserved)
    (acc : SchemaProps) (name : String) (v : Json) (sp : Option Span) :
    Rejects (annotStep ctx acc name v sp) (StepMistake special reserved name v sp) := by
  have hns : "namespace" ∈ special → ctx.withNamespace = true := fun h => by
    simpa [Special] using (hsp _).mpr h
  have hal : "aliases" ∈ special → ctx.withAliases = true := fun h => by
    simpa [Special] using (hsp _).mpr h
  have hor : "order" ∈ special → ctx.withOrder = true := fun h => by
    simpa [Special] using (hsp _).mpr h
  unfold annotStep
  split
  · rename_i h
    simp only [Bool.and_eq_true, beq_iff_eq] at h
    obtain ⟨h1, rfl⟩ := h
    have hm : "namespace" ∈ special := (hsp _).mp (.inl ⟨h1, rfl⟩)
    split
    · refine Rejects.pure.congr fun e => ⟨fun h => h.elim, fun h => ?_⟩
      cases h with
      | reserved _ h => exact h hm
      | namespace_ _ _ h => exact h _ rfl
      | aliases _ h => simp at h
      | order _ h => simp at h
    · rename_i hv
      refine Rejects.fail.congr fun e => ⟨?_, fun h => ?_⟩
      · rintro rfl; exact .namespace_ hm rfl hv
      · cases h with
        | reserved _ h => exact absurd hm h
        | namespace_ => rfl
        | aliases _ h => simp at h
        | order _ h => simp at h
  · rename_i h1
    simp only [Bool.and_eq_true, beq_iff_eq, not_and] at h1
    split
    · rename_i h
      simp only [Bool.and_eq_true, beq_iff_eq] at h
      obtain ⟨h2, rfl⟩ := h
      have hm : "aliases" ∈ special := (hsp _).mp (.inr (.inl ⟨h2, rfl⟩))
      split
      · rename_i l
        refine Rejects.congr (Rejects.bind (Rejects.of_accepts (walkAliases_accepts sp l)
          (walkAliases_only sp l)) (walkAliases_accepts sp l) (Post.any _) fun _ _ => .pure) fun e => ?_
        constructor
        · rintro (⟨rfl, h⟩ | ⟨-, h⟩)
          · exact .aliases hm rfl fun ss hs => h ⟨ss, by injection hs⟩
          · exact h.elim
        · intro h
          cases h with
          | reserved _ h => exact absurd hm h
          | namespace_ _ h => simp at h
          | aliases _ _ h => exact .inl ⟨rfl, fun ⟨ss, hs⟩ => h ss (by rw [hs])⟩
          | order _ h => simp at h
      · rename_i hv
        refine Rejects.fail.congr fun e => ⟨?_, fun h => ?_⟩
        · rintro rfl; exact .aliases hm rfl fun ss hs => hv _ hs
        · cases h with
          | reserved _ h => exact absurd hm h
          | namespace_ _ h => simp at h
          | aliases => rfl
          | order _ h => simp at h
    · rename_i h2
      simp only [Bool.and_eq_true, beq_iff_eq, not_and] at h2
      split
      · rename_i h
        simp only [Bool.and_eq_true, beq_iff_eq] at h
        obtain ⟨h3, rfl⟩ := h
        have hm : "order" ∈ special := (hsp _).mp (.inr (.inr ⟨h3, rfl⟩))
        have hiff := parseOrderAnnot_iff v
        split
        · rename_i o ho
          refine Rejects.pure.congr fun e => ⟨fun h => h.elim, fun h => ?_⟩
          cases h with
          | reserved _ h => exact h hm
          | namespace_ _ h => simp at h
          | aliases _ h => simp at h
          | order _ _ h =>
            obtain ⟨s, o, h1, h2⟩ := hiff.mp ⟨o, ho⟩
            exact h s o h2 h1
        · rename_i hv
          refine Rejects.fail.congr fun e => ⟨?_, fun h => ?_⟩
          · rintro rfl
            refine .order hm rfl fun s o ho hs => ?_
            obtain ⟨o', ho'⟩ := hiff.mpr ⟨s, o, hs, ho⟩
            rw [hv] at ho'; cases ho'
          · cases h with
            | reserved _ h => exact absurd hm h
            | namespace_ _ h => simp at h
            | aliases _ h => simp at h
            | order => rfl
      · rename_i h3
        simp only [Bool.and_eq_true, beq_iff_eq, not_and] at h3
        have hs : name ∉ special := by
          intro h
          rcases (hsp _).mpr h with h | h | h
          · exact h1 h.1 h.2
          · exact h2 h.1 h.2
          · exact h3 h.1 h.2
        have key : ∀ {e}, StepMistake special reserved name v sp e →
            name ∈ reserved ∧ e = ⟨.reservedProperty name, sp⟩ := by
          intro e h
          cases h with
          | reserved h => exact ⟨h, rfl⟩
          | namespace_ h e _ => exact absurd (e ▸ h) hs
          | aliases h e _ => exact absurd (e ▸ h) hs
          | order h e _ => exact absurd (e ▸ h) hs
        split
        · rename_i hc
          have hc := (hr _).mp (by simpa using hc)
          exact Rejects.fail.congr fun e => ⟨fun h => h ▸ .reserved hc hs, fun h => (key h).2⟩
        · rename_i hc
          refine Rejects.pure.congr fun e => ⟨fun h => h.elim, fun h => ?_⟩
          exact absurd ((hr _).mpr (key h).1) (by simpa using hc)

omit [CharTables] in
theorem annotsOk_single {special reserved : List String} {a : Annot} {as : List Annot} :
    AnnotsOk special reserved (a :: as) ↔
      AnnotsOk special reserved [a] ∧ AnnotsOk special reserved as := by
  have hnil : AnnotsOk special reserved ([] : List Annot) :=
    ⟨by simp, by simp, by simp, by simp, by simp⟩
  constructor
  · intro h
    obtain ⟨v, hv⟩ := h.readable a (List.mem_cons_self ..)
    rw [annotsOk_cons hv] at h ⊢
    exact ⟨⟨h.1, hnil⟩, h.2⟩
  · rintro ⟨h, h'⟩
    obtain ⟨v, hv⟩ := h.readable a (List.mem_cons_self ..)
    rw [annotsOk_cons hv] at h ⊢
    exact ⟨h.1, h'⟩

theorem walkAnnots_rejects (ctx : PropCtx) {special reserved : List String}
    (hsp : ∀ k, Special ctx k ↔ k ∈ special) (hr : ∀ k, k ∈ ctx.reserved ↔ k ∈ reserved)
    (as : List Annot) : ∀ acc : SchemaProps,
    Rejects (walkAnnots ctx acc as) (AnnotsMistake special reserved as) := by
  induction as with
  | nil => intro acc; exact Rejects.pure.congr fun e => FirstBad.nil_iff.symm
  | cons a as ih =>
    intro acc
    simp only [walkAnnots]
    refine Rejects.congr (Rejects.lift.bind Accepts.lift (Post.lift fun v hv => hv)
      (G := fun e => (∃ v, walkJson a.value = .ok v ∧
        StepMistake special reserved (identifierText a.name) v a.span e) ∨
          AnnotsOk special reserved [a] ∧ AnnotsMistake special reserved as e) fun v hv => ?_)
      fun e => ?_
    · refine Rejects.congr ((annotStep_rejects ctx hsp hr acc _ v _).bind
        (annotStep_accepts ctx hsp hr acc _ v _) (Post.any _) fun acc' _ => ih acc') fun e => ?_
      have h1 : AnnotsOk special reserved [a] ↔
          StepOk special reserved (identifierText a.name) v := by
        rw [annotsOk_cons hv]
        exact ⟨fun h => h.1, fun h => ⟨h, by simp, by simp, by simp, by simp, by simp⟩⟩
      rw [h1]
      refine or_congr_left ⟨fun h => ⟨v, hv, h⟩, fun ⟨v', hv', h⟩ => ?_⟩
      rw [hv] at hv'; cases hv'
      exact h
    · rw [show AnnotsMistake special reserved (a :: as) e ↔ _ from FirstBad.cons_iff,
        annotMistake_iff, or_assoc]
      refine or_congr_right ⟨fun h => h.2, fun h => ⟨?_, h⟩⟩
      rcases h with ⟨v, hv, -⟩ | ⟨h, -⟩
      · exact ⟨v, hv⟩
      · exact h.readable a (List.mem_cons_self ..)

omit [CharTables] [FloatTables] [CaseTables] in
theorem walkDoc_rejects (tokens : List Token) (start : Nat) :
    Rejects (walkDoc tokens start) fun _ => False := .never (walkDoc_accepts tokens start)

/-! ## Types -/

omit [CharTables] [FloatTables] [CaseTables] in
theorem firstDuplicate_some_iff {ks : List String} {k : String × Option Span} :
    ∀ {seen : List String} {sps : List (Option Span)}, firstDuplicate seen ks sps = some k ↔
      ∃ before after, ks = before ++ k.1 :: after ∧ before.Nodup ∧ (∀ x ∈ before, x ∉ seen) ∧
        (k.1 ∈ before ∨ k.1 ∈ seen) ∧ k.2 = headSpan (sps.drop before.length) := by
  induction ks with
  | nil => simp [firstDuplicate]
  | cons x ks ih =>
    intro seen sps
    simp only [firstDuplicate]
    split
    · rename_i h
      have h : x ∈ seen := by simpa using h
      simp only [Option.some.injEq]
      constructor
      · rintro rfl
        exact ⟨[], ks, rfl, List.nodup_nil, by simp, .inr h, rfl⟩
      · rintro ⟨before, after, h1, h2, h3, h4, h5⟩
        cases before with
        | nil => simp at h1; exact Prod.ext h1.1 h5.symm
        | cons y before =>
          simp only [List.cons_append, List.cons.injEq] at h1
          exact absurd (h1.1 ▸ h) (h3 y (List.mem_cons_self ..))
    · rename_i h
      have h : x ∉ seen := by simpa using h
      rw [ih]
      constructor
      · rintro ⟨before, after, rfl, h2, h3, h4, h5⟩
        refine ⟨x :: before, after, rfl, ?_, ?_, ?_, by simpa using h5⟩
        · exact List.nodup_cons.mpr ⟨fun hx => h3 x hx (by simp), h2⟩
        · intro y hy
          rcases List.mem_cons.mp hy with rfl | hy
          · exact h
          · exact fun hs => h3 y hy (by simp [hs])
        · rcases h4 with h4 | h4
          · exact .inl (List.mem_cons_of_mem _ h4)
          · rcases List.mem_append.mp h4 with h4 | h4
            · exact .inr h4
            · simp only [List.mem_singleton] at h4; rw [h4]; exact .inl (List.mem_cons_self ..)
      · rintro ⟨before, after, h1, h2, h3, h4, h5⟩
        cases before with
        | nil =>
          simp only [List.nil_append, List.cons.injEq] at h1
          rcases h4 with h4 | h4
          · cases h4
          · exact absurd (h1.1 ▸ h4) h
        | cons y before =>
          simp only [List.cons_append, List.cons.injEq] at h1
          obtain ⟨rfl, rfl⟩ := h1
          obtain ⟨h2a, h2b⟩ := List.nodup_cons.mp h2
          refine ⟨before, after, rfl, h2b, fun z hz hm => ?_, ?_, by simpa using h5⟩
          · rcases List.mem_append.mp hm with hm | hm
            · exact h3 z (List.mem_cons_of_mem _ hz) hm
            · simp only [List.mem_singleton] at hm; subst hm; exact h2a hz
          · rcases h4 with h4 | h4
            · rcases List.mem_cons.mp h4 with h4 | h4
              · exact .inr (by simp [h4])
              · exact .inl h4
            · exact .inr (by simp [h4])

omit [CharTables] [CaseTables] in
theorem typesMean_keys {ns : Option String} {ts : List FullType} {ss : List Schema}
    (h : TypesMean ns ts ss) (hu : ∀ t ∈ ts, ¬ IsUnionType t) (x : String) :
    x ∈ ss.map Schema.unionKey ↔ ∃ t ∈ ts, MemberName ns t x := by
  induction ts generalizing ss with
  | nil => cases h; simp
  | cons t ts ih =>
    cases h with
    | cons h1 h2 =>
      have hu' := fun t ht => hu t (List.mem_cons_of_mem _ ht)
      rw [List.map_cons, List.mem_cons, ih h2 hu',
        ← h1.memberName (hu t (List.mem_cons_self ..)) x]
      simp

omit [CharTables] [CaseTables] in
theorem typesMean_append {ns : Option String} {ts us : List FullType} {ss : List Schema} :
    TypesMean ns (ts ++ us) ss ↔ ∃ s1 s2, ss = s1 ++ s2 ∧ TypesMean ns ts s1 ∧
      TypesMean ns us s2 := by
  induction ts generalizing ss with
  | nil =>
    constructor
    · exact fun h => ⟨[], ss, rfl, .nil, h⟩
    · rintro ⟨s1, s2, rfl, h1, h2⟩; cases h1; exact h2
  | cons t ts ih =>
    constructor
    · intro h
      cases h with
      | cons h1 h2 =>
        obtain ⟨s1, s2, rfl, h3, h4⟩ := ih.mp h2
        exact ⟨_ :: s1, s2, rfl, .cons h1 h3, h4⟩
    · rintro ⟨s1, s2, rfl, h1, h2⟩
      cases h1 with
      | cons h1 h3 => exact .cons h1 (ih.mpr ⟨_, _, rfl, h3, h2⟩)

omit [CharTables] [CaseTables] in
theorem typesMean_append_right {ns : Option String} {ts : List FullType} {s1 s2 : List Schema}
    (h : TypesMean ns ts (s1 ++ s2)) : ∃ t1 t2, ts = t1 ++ t2 ∧ TypesMean ns t1 s1 ∧
      TypesMean ns t2 s2 := by
  induction s1 generalizing ts with
  | nil => exact ⟨[], ts, rfl, .nil, h⟩
  | cons s s1 ih =>
    cases h with
    | cons h1 h2 =>
      obtain ⟨t1, t2, rfl, h3, h4⟩ := ih h2
      exact ⟨_ :: t1, t2, rfl, .cons h1 h3, h4⟩

omit [CharTables] [CaseTables] in
theorem typesMean_length {ns : Option String} {ts : List FullType} {ss : List Schema}
    (h : TypesMean ns ts ss) : ss.length = ts.length := by
  induction ts generalizing ss with
  | nil => cases h; rfl
  | cons t ts ih =>
    cases h with
    | cons h1 h2 => simp [ih h2]

omit [CharTables] [FloatTables] [CaseTables] in
theorem headSpan_drop {α : Type} {f : α → Option Span} {b a : List α} {x : α} {n : Nat}
    (hn : n = b.length) : headSpan (((b ++ x :: a).map f).drop n) = f x := by
  subst hn
  simp [headSpan]

omit [CharTables] [CaseTables] in
/-- The first member that is a union. -/
theorem typesMean_nested {ns : Option String} {ts : List FullType} {ss : List Schema}
    (h : TypesMean ns ts ss) (sp : Option Span) :
    firstUnion ss (ts.map FullType.span) = some sp ↔ ∃ before t after,
      ts = before ++ t :: after ∧ (∀ v ∈ before, ¬ IsUnionType v) ∧ IsUnionType t ∧
      sp = t.span := by
  induction ts generalizing ss with
  | nil => cases h; simp [firstUnion]
  | cons t ts ih =>
    cases h with
    | cons h1 h2 =>
      simp only [firstUnion]
      split
      · rename_i hu
        rw [h1.union_iff] at hu
        simp only [List.map_cons, headSpan, List.head?_cons, Option.join_some, Option.some.injEq]
        constructor
        · rintro rfl
          exact ⟨[], t, ts, rfl, by simp, hu, rfl⟩
        · rintro ⟨b, t', a, h3, h4, -, rfl⟩
          cases b with
          | nil => simp only [List.nil_append, List.cons.injEq] at h3; rw [h3.1]
          | cons y b =>
            simp only [List.cons_append, List.cons.injEq] at h3
            exact absurd (h3.1 ▸ hu) (h4 y (List.mem_cons_self ..))
      · rename_i hu
        rw [h1.union_iff] at hu
        rw [List.map_cons, List.tail_cons, ih h2]
        constructor
        · rintro ⟨b, t', a, rfl, h4, h5, h6⟩
          refine ⟨t :: b, t', a, rfl, ?_, h5, h6⟩
          intro v hv
          rcases List.mem_cons.mp hv with rfl | hv
          · exact hu
          · exact h4 v hv
        · rintro ⟨b, t', a, h3, h4, h5, h6⟩
          cases b with
          | nil => simp only [List.nil_append, List.cons.injEq] at h3; exact absurd (h3.1 ▸ h5) hu
          | cons y b =>
            simp only [List.cons_append, List.cons.injEq] at h3
            exact ⟨b, t', a, h3.2, fun v hv => h4 v (List.mem_cons_of_mem _ hv), h5, h6⟩

omit [CharTables] [CaseTables] in
theorem typesMean_repeated {ns : Option String} {ts : List FullType} {ss : List Schema}
    (h : TypesMean ns ts ss) (hu : ∀ t ∈ ts, ¬ IsUnionType t) (x : String × Option Span) :
    firstDuplicate [] (ss.map Schema.unionKey) (ts.map FullType.span) = some x ↔
      ∃ before t u after, ts = before ++ t :: after ∧
      before.Pairwise (fun t u => ∀ x, MemberName ns t x → ¬ MemberName ns u x) ∧
      MemberName ns t x.1 ∧ u ∈ before ∧ MemberName ns u x.1 ∧ x.2 = t.span := by
  rw [firstDuplicate_some_iff]
  constructor
  · rintro ⟨b, a, h1, h2, -, h3, hsp⟩
    obtain ⟨sb, s', rfl, rfl, h4⟩ := List.map_eq_append_iff.mp h1
    obtain ⟨s, sa, rfl, hx, rfl⟩ := List.map_eq_cons_iff.mp h4
    obtain ⟨tb, t', rfl, hb, ht'⟩ := typesMean_append_right h
    cases ht' with
    | @cons t _ ta _ ht ha =>
      have hub := fun t ht => hu t (List.mem_append_left _ ht)
      rcases h3 with h3 | h3
      · obtain ⟨u, hum, hux⟩ := (typesMean_keys hb hub _).mp h3
        refine ⟨tb, t, u, ta, rfl, ((typesMean_members hb).2 hub).mp h2,
          (ht.memberName (hu t (by simp)) _).mpr hx.symm, hum, hux, ?_⟩
        rw [hsp]
        exact headSpan_drop (by rw [List.length_map, typesMean_length hb])
      · cases h3
  · rintro ⟨tb, t, u, ta, rfl, h2, h3, h4, h5, h6⟩
    obtain ⟨sb, s', rfl, hb, ht'⟩ := typesMean_append.mp h
    cases ht' with
    | @cons _ s _ sa ht ha =>
      have hub := fun t ht => hu t (List.mem_append_left _ ht)
      have := (ht.memberName (hu t (by simp)) _).mp h3
      refine ⟨sb.map Schema.unionKey, sa.map Schema.unionKey, by simp [this],
        ((typesMean_members hb).2 hub).mpr h2, by simp,
        .inl ((typesMean_keys hb hub _).mpr ⟨u, h4, h5⟩), ?_⟩
      rw [h6]
      exact (headSpan_drop (by rw [List.length_map, typesMean_length hb])).symm

/-- What can be wrong with a union whose members are fine. -/
inductive UnionMistake (ns : Option String) (ts : List FullType) : Fault → Prop
  | nested {before t after} : ts = before ++ t :: after → (∀ v ∈ before, ¬ IsUnionType v) →
      IsUnionType t → UnionMistake ns ts ⟨.nestedUnion, t.span⟩
  | duplicate {before t u after x} : (∀ v ∈ ts, ¬ IsUnionType v) → ts = before ++ t :: after →
      before.Pairwise (fun t u => ∀ x, MemberName ns t x → ¬ MemberName ns u x) →
      MemberName ns t x → u ∈ before → MemberName ns u x →
      UnionMistake ns ts ⟨.duplicateInUnion x, t.span⟩

omit [CharTables] [CaseTables] in
theorem checkUnion_error {ns : Option String} {ts : List FullType} {ss : List Schema}
    (h : TypesMean ns ts ss) (e : Fault) :
    checkUnion ss (ts.map FullType.span) = .error e ↔ UnionMistake ns ts e := by
  have hnest := typesMean_nested h
  unfold checkUnion
  split
  · rename_i sp hu
    obtain ⟨b, t, a, h1, h2, h3, h4⟩ := (hnest sp).mp hu
    refine ⟨fun h => by cases h; rw [h4]; exact .nested h1 h2 h3, fun h => ?_⟩
    cases h with
    | nested h1' h2' h3' =>
      have := (hnest _).mpr ⟨_, _, _, h1', h2', h3', rfl⟩
      rw [hu] at this; injection this with this; rw [this]
    | duplicate hn => exact absurd h3 (hn t (by rw [h1]; simp))
  · rename_i hn
    have hu : ∀ t ∈ ts, ¬ IsUnionType t := by
      have h0 := (typesMean_members h).1
      rw [← h0, List.any_eq_false]
      intro s hs
      simp [(firstUnion_none.mp hn) s hs]
    have hrep := typesMean_repeated h hu
    cases hd : firstDuplicate [] (ss.map Schema.unionKey) (ts.map FullType.span) with
    | some k =>
      simp only
      constructor
      · intro h
        cases h
        obtain ⟨b, t, u, a, h2, h3, h4, h5, h6, h7⟩ := (hrep k).mp hd
        rw [h7]
        exact .duplicate hu h2 h3 h4 h5 h6
      · intro h
        cases h with
        | nested h1 h2 h3 => exact absurd h3 (hu _ (by rw [h1]; simp))
        | @duplicate _ t _ _ x _ h2 h3 h4 h5 h6 =>
          have := (hrep (x, t.span)).mpr ⟨_, _, _, _, h2, h3, h4, h5, h6, rfl⟩
          rw [hd] at this; cases this; rfl
    | none =>
      refine ⟨fun h => (by cases h), fun h => ?_⟩
      cases h with
      | nested h1 h2 h3 => exact absurd h3 (hu _ (by rw [h1]; simp))
      | @duplicate _ t _ _ x _ h2 h3 h4 h5 h6 =>
        have := (hrep (x, t.span)).mpr ⟨_, _, _, _, h2, h3, h4, h5, h6, rfl⟩
        rw [hd] at this; cases this

omit [CharTables] [FloatTables] [CaseTables] in
theorem wrapOptional_error {o : Bool} {sp : Option Span} {s : Schema} {e : Fault} :
    wrapOptional o sp s = .error e ↔ e = ⟨.nullableNull, sp⟩ ∧ o = true ∧ s = .prim .null := by
  unfold wrapOptional
  cases o with
  | false => simp
  | true =>
    rw [if_pos rfl]
    split
    · simp only [Except.error.injEq, and_true]; exact eq_comm
    · rename_i h
      exact ⟨fun h => (by cases h), fun h' => absurd h'.2.2 h⟩

/-- What can be wrong with a keyword. -/
inductive KeywordMistake : PrimTok → Fault → Prop
  | precision {p sp s} : (∀ n, parseIntegerAsU32 p = some n → n = 0) →
      KeywordMistake (.decimal p sp s) ⟨.badPrecision, sp⟩
  | scale {p sp s sp' n} : parseIntegerAsU32 p = some n → n ≠ 0 →
      (∀ m, parseIntegerAsU32 s = some m → n < m) →
      KeywordMistake (.decimal p sp (some (s, sp'))) ⟨.badScale, sp'⟩

omit [CharTables] [FloatTables] [CaseTables] in
theorem walkPrim_error (p : PrimTok) (e : Fault) : walkPrim p = .error e ↔ KeywordMistake p e := by
  cases p with
  | decimal p sp s =>
    simp only [walkPrim]
    cases hp : parseIntegerAsU32 p with
    | none =>
      refine ⟨fun h => by cases h; exact .precision (by simp [hp]), fun h => ?_⟩
      cases h with
      | precision => rfl
      | scale h => rw [hp] at h; cases h
    | some n =>
      simp only
      split
      · rename_i h0
        refine ⟨fun h => by cases h; exact .precision (by simp [hp, h0]), fun h => ?_⟩
        cases h with
        | precision => rfl
        | scale h h' => rw [hp] at h; cases h; exact absurd h0 h'
      · rename_i h0
        cases s with
        | none =>
          simp only
          rw [if_neg (by omega)]
          refine ⟨fun h => (by cases h), fun h => ?_⟩
          cases h with
          | precision h => exact absurd (h n hp) h0
        | some s =>
          obtain ⟨s, sp'⟩ := s
          simp only [Option.bind_some]
          cases hs : parseIntegerAsU32 s with
          | none =>
            refine ⟨fun h => by cases h; exact .scale hp h0 (by simp [hs]), fun h => ?_⟩
            cases h with
            | precision h => exact absurd (h n hp) h0
            | scale => rfl
          | some m =>
            simp only
            split
            · rename_i hm
              refine ⟨fun h => by
                cases h; exact .scale hp h0 (by simp only [hs]; rintro m ⟨⟩; exact hm),
                fun h => ?_⟩
              cases h with
              | precision h => exact absurd (h n hp) h0
              | scale => rfl
            · rename_i hm
              refine ⟨fun h => (by cases h), fun h => ?_⟩
              cases h with
              | precision h => exact absurd (h n hp) h0
              | scale h1 h2 h3 => rw [hp] at h1; cases h1; exact absurd (h3 m hs) hm
  | _ => exact ⟨fun h => by simp [walkPrim] at h, fun h => by cases h⟩

omit [CharTables] [FloatTables] [CaseTables] in
theorem finishFullType_rejects (ps : Props) (sp : Option Span) (s : Schema) :
    Rejects (finishFullType ps sp s) fun e => e = ⟨.annotatedReference, sp⟩ ∧ ps.isEmpty = false ∧ isTypeReference s = true := by
  refine (Rejects.of_accepts (finishFullType_accepts ps sp s) (e0 := ⟨.annotatedReference, sp⟩)
    fun l e h => ?_).congr fun e => by cases ps.isEmpty <;> cases isTypeReference s <;> simp
  unfold finishFullType at h
  split at h
  · cases h
  · split at h
    · cases h; rfl
    · split at h <;> cases h

omit [CharTables] in
theorem typesMistake_cons {ns : Option String} {t : FullType} {ts : List FullType} {e : Fault} :
    TypesMistake ns (t :: ts) e ↔ TypeMistake ns t e ∨ TypeOk ns t ∧ TypesMistake ns ts e :=
  ⟨fun h => by
    cases h with
    | here h => exact .inl h
    | later h h' => exact .inr ⟨h, h'⟩, fun h => h.elim .here fun h => .later h.1 h.2⟩

mutual
theorem walkFullType_rejects (ns : Option String) : ∀ t : FullType,
    Rejects (walkFullType ns t) (TypeMistake ns t)
  | .mk annots t sp => by
      simp only [walkFullType]
      have hres : ∀ k, k ∈ bareCtx.reserved ↔ k ∈ typeAttributes := fun k => by
        simp only [bareCtx, schemaReserved, typeAttributes, List.mem_cons, List.not_mem_nil]
        grind
      refine Rejects.congr ((walkAnnots_rejects bareCtx (special := []) (reserved := typeAttributes)
        (by simp [Special, bareCtx]) hres annots {}).bind (walkAnnots_accepts bareCtx
        (special := []) (reserved := typeAttributes) (by simp [Special, bareCtx]) hres annots {})
        (walkAnnots_keys bareCtx (by simp [Special, bareCtx]) annots) fun p hp =>
        (walkPlainType_rejects ns t).bind (walkPlainType_accepts ns t)
        (walkPlainType_means ns t) fun s hs =>
        (finishFullType_rejects p.props sp s).congr (G := fun e => e = ⟨.annotatedReference, sp⟩ ∧
          annots ≠ [] ∧ ∃ ident span o, t = .named ident span o) fun e => ?_) fun e => ?_
      · rw [hp.1, isTypeReference_iff hs.1]
        cases annots <;> simp
      · constructor
        · rintro (h | ⟨h1, h | ⟨h2, rfl, h3, ident, span, o, rfl⟩⟩)
          · exact .annots h
          · exact .plain h1 h
          · exact .reference h1 h3
        · intro h
          cases h with
          | annots h => exact .inl h
          | plain h1 h => exact .inr ⟨h1, .inl h⟩
          | reference h1 h3 => exact .inr ⟨h1, .inr ⟨.named, rfl, h3, _, _, _, rfl⟩⟩
theorem walkPlainType_rejects (ns : Option String) : ∀ t : PlainType,
    Rejects (walkPlainType ns t) (PlainMistake ns t)
  | .array t => by
      simp only [walkPlainType]
      refine Rejects.congr ((walkFullType_rejects ns t).bind (walkFullType_accepts ns t)
        (Post.any _) fun _ _ => .pure) fun e => ?_
      exact ⟨fun h => .array (by simpa using h), fun h => by
        cases h with | array h => exact .inl h⟩
  | .map t => by
      simp only [walkPlainType]
      refine Rejects.congr ((walkFullType_rejects ns t).bind (walkFullType_accepts ns t)
        (Post.any _) fun _ _ => .pure) fun e => ?_
      exact ⟨fun h => .map (by simpa using h), fun h => by
        cases h with | map h => exact .inl h⟩
  | .union ts => by
      simp only [walkPlainType]
      refine Rejects.congr ((walkFullTypes_rejects ns ts).bind (walkFullTypes_accepts ns ts)
        (walkFullTypes_means ns ts) fun ss hss => Rejects.lift.congr (checkUnion_error hss))
        fun e => ?_
      constructor
      · rintro (h | ⟨h1, h⟩)
        · exact .member h
        · cases h with
          | nested h2 h3 h4 => subst h2; exact .nested h1 h3 h4
          | duplicate h2 h3 h4 h5 h6 h7 =>
            subst h3
            exact .duplicate (fun v hv => ⟨h1 v hv, h2 v hv⟩) h4 h5 h6 h7
      · intro h
        cases h with
        | member h => exact .inl h
        | nested h1 h2 h3 => exact .inr ⟨h1, .nested rfl h2 h3⟩
        | duplicate h1 h4 h5 h6 h7 =>
          exact .inr ⟨fun v hv => (h1 v hv).1, .duplicate (fun v hv => (h1 v hv).2) rfl h4 h5 h6 h7⟩
  | .prim p o sp => by
      simp only [walkPlainType]
      refine Rejects.congr (Rejects.lift.bind Accepts.lift (Post.lift fun s hs => hs) fun s hs =>
        Rejects.lift.congr (G := fun e => e = ⟨.nullableNull, sp⟩ ∧ o = true ∧ p = .prim .null)
          fun e => ?_) fun e => ?_
      · rw [wrapOptional_error, (walkPrim_means hs).1.facts.1]
      · rw [walkPrim_error]
        constructor
        · rintro (h | ⟨-, rfl, rfl, rfl⟩)
          · cases h with
            | precision h => exact .precision h
            | scale h1 h2 h3 => exact .scale h1 h2 h3
          · exact .null
        · intro h
          cases h with
          | precision h => exact .inl (.precision h)
          | scale h1 h2 h3 => exact .inl (.scale h1 h2 h3)
          | null => exact .inr ⟨⟨_, rfl⟩, rfl, rfl, rfl⟩
  | .named ident span o => by
      simp only [walkPlainType]
      refine Rejects.lift.congr fun e => ?_
      obtain ⟨n, ns', h1, h2⟩ := refTo_means (identifierText ident) span ns
      rw [wrapOptional_error, h2]
      exact ⟨fun h => by simp at h, fun h => by cases h⟩
theorem walkFullTypes_rejects (ns : Option String) : ∀ ts : List FullType,
    Rejects (walkFullTypes ns ts) (TypesMistake ns ts)
  | [] => by
      simp only [walkFullTypes]
      exact Rejects.pure.congr fun e => ⟨fun h => h.elim, fun h => by cases h⟩
  | t :: ts => by
      simp only [walkFullTypes]
      refine Rejects.congr ((walkFullType_rejects ns t).bind (walkFullType_accepts ns t)
        (Post.any _) fun _ _ => (walkFullTypes_rejects ns ts).bind (walkFullTypes_accepts ns ts)
        (Post.any _) fun _ _ => .pure) fun e => ?_
      rw [typesMistake_cons]
      simp
end

end

end Avdl
