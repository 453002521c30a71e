import Verif.Reader
import Verif.Spec.WellFormed
import Verif.Spec.Flat
import Verif.Lemmas.Json
import Verif.Lemmas.Held
/-! # What the reader produces -/

namespace Avdl
open W Spec

/-! ## Partial correctness of walk steps -/

/-- Every result of the step satisfies `P`. -/
def Post {α : Type} (m : W α) (P : α → Prop) : Prop := ∀ l a l', m l = .ok (a, l') → P a

namespace Post

theorem pure {α : Type} {a : α} {P : α → Prop} (h : P a) : Post (W.pure a) P := by
  intro l b l' hb
  simp only [W.pure, Except.ok.injEq, Prod.mk.injEq] at hb
  rw [← hb.1]; exact h

theorem fail {α : Type} {e : ReadErr} {sp : Option Span} {P : α → Prop} :
    Post (W.fail e sp) P := by
  intro l b l' hb; simp [W.fail] at hb

theorem bind {α β : Type} {m : W α} {f : α → W β} {P : α → Prop} {Q : β → Prop}
    (hm : Post m P) (hf : ∀ a, P a → Post (f a) Q) : Post (W.bind m f) Q := by
  intro l b l' h
  simp only [W.bind] at h
  split at h
  · cases h
  · rename_i a l1 ha; exact hf a (hm l a l1 ha) l1 b l' h

theorem mono {α : Type} {m : W α} {P Q : α → Prop} (hm : Post m P) (h : ∀ a, P a → Q a) :
    Post m Q := fun l a l' ha => h a (hm l a l' ha)

theorem any {α : Type} (m : W α) : Post m fun _ => True := fun _ _ _ _ => trivial

theorem lift {α : Type} {x : Except Fault α} {P : α → Prop} (h : ∀ a, x = .ok a → P a) :
    Post (W.lift x) P := by
  intro l b l' hb
  cases x with
  | error e => simp [W.lift] at hb
  | ok a =>
    simp only [W.lift, Except.ok.injEq, Prod.mk.injEq] at hb
    rw [← hb.1]; exact h a rfl

theorem failIf {b : Bool} {e : ReadErr} {sp : Option Span} :
    Post (W.failIf b e sp) fun _ => b = false := by
  cases b with
  | false => exact pure rfl
  | true => exact fail

theorem and {α : Type} {m : W α} {P Q : α → Prop} (h1 : Post m P) (h2 : Post m Q) :
    Post m fun a => P a ∧ Q a := fun l a l' h => ⟨h1 l a l' h, h2 l a l' h⟩

end Post

/-! ## Property maps -/

theorem Props.mem_insert {p : Props} {k : String} {v : Json} {x : String × Json}
    (h : x ∈ p.insert k v) : x ∈ p ∨ x = (k, v) := by
  simp only [Props.insert, Props.erase, List.mem_append, List.mem_filter, List.mem_singleton] at h
  rcases h with h | h
  · exact Or.inl h.1
  · exact Or.inr h

theorem Props.Wf.erase {p : Props} (h : p.Wf) (k : String) : (p.erase k).Wf := by
  unfold Props.Wf Props.erase at *
  exact List.Nodup.sublist (List.Sublist.map _ List.filter_sublist) h

theorem Props.Wf.insert {p : Props} (h : p.Wf) (k : String) (v : Json) : (p.insert k v).Wf := by
  have he := h.erase k
  unfold Props.Wf Props.insert at *
  rw [List.map_append, List.nodup_append]
  refine ⟨he, by simp, fun a ha b hb => ?_⟩
  simp only [List.map_cons, List.map_nil, List.mem_singleton] at hb
  subst hb
  obtain ⟨x, hx, rfl⟩ := List.mem_map.mp ha
  have := (List.mem_filter.mp hx).2
  simpa using this

theorem Props.mem_extend {p q : Props} {x : String × Json} (h : x ∈ p.extend q) :
    x ∈ p ∨ x ∈ q := by
  unfold Props.extend at h
  induction q generalizing p with
  | nil => exact Or.inl h
  | cons a as ih =>
    rcases ih h with h | h
    · rcases Props.mem_insert h with h | h
      · exact Or.inl h
      · exact Or.inr (by rw [h]; exact List.mem_cons_self ..)
    · exact Or.inr (List.mem_cons_of_mem _ h)

theorem Props.Wf.extend {p : Props} (h : p.Wf) (q : Props) : (p.extend q).Wf := by
  unfold Props.extend
  induction q generalizing p with
  | nil => exact h
  | cons a as ih => exact ih (h.insert a.1 a.2)

theorem Props.Avoids.erase {p : Props} {ks : List String} (h : p.Avoids ks) (k : String) :
    (p.erase k).Avoids ks := fun x hx => h x (List.mem_filter.mp hx).1

theorem Props.Avoids.insert {p : Props} {ks : List String} (h : p.Avoids ks) {k : String}
    (hk : k ∉ ks) (v : Json) : (p.insert k v).Avoids ks := by
  intro x hx
  rcases Props.mem_insert hx with hx | hx
  · exact h x hx
  · rw [hx]; exact hk

theorem Props.Avoids.extend {p q : Props} {ks : List String} (h : p.Avoids ks)
    (h' : q.Avoids ks) : (p.extend q).Avoids ks := by
  intro x hx
  rcases Props.mem_extend hx with hx | hx
  · exact h x hx
  · exact h' x hx

/-- Properties as `walk_schema_properties` returns them: distinct keys, none of them reserved, and
values the program can hold. -/
def AnnotOk (reserved : List String) (ps : Props) : Prop :=
  (ps.Wf ∧ HeldEntries ps) ∧ ps.Avoids reserved

theorem annotOk_nil (r : List String) : AnnotOk r [] :=
  ⟨⟨List.nodup_nil, heldEntries_nil⟩, fun _ h => by simp at h⟩

theorem AnnotOk.extend {r : List String} {p q : Props} (h : AnnotOk r p) (h' : AnnotOk r q) :
    AnnotOk r (p.extend q) :=
  ⟨⟨h.1.1.extend q, fun x hx => by
      rcases Props.mem_extend hx with hx | hx
      · exact h.1.2 x hx
      · exact h'.1.2 x hx⟩, h.2.extend h'.2⟩

theorem Props.extend_isEmpty {p q : Props} (h : p.isEmpty = false) :
    (p.extend q).isEmpty = false := by
  unfold Props.extend
  induction q generalizing p with
  | nil => exact h
  | cons x q ih => exact ih (by simp [Props.insert])

theorem AnnotOk.erase {r : List String} {p : Props} (h : AnnotOk r p) (k : String) :
    AnnotOk r (p.erase k) :=
  ⟨⟨h.1.1.erase k, fun x hx => h.1.2 x (List.mem_filter.mp hx).1⟩, h.2.erase k⟩

/-- The numbers of a decimal are 32-bit integers. -/
def NumbersOk (lt : LogicalType) : Prop := ∀ p s, lt = .decimal p s → p < 2 ^ 32 ∧ s < 2 ^ 32

/-! ## Types: what the pieces preserve -/

/-- The primitive type underneath, if any. -/
def Schema.primKind : Schema → Option Prim
  | .prim p | .annotated p _ => some p
  | .logical lt _ => some lt.base
  | _ => none

/-- Results of walking a type in namespace `ns`. -/
inductive TypeOut (ns : Option String) : Schema → Prop
  | prim (p : Prim) : TypeOut ns (.prim p)
  | annotated (k : Prim) (ps : Props) : AnnotOk schemaReserved ps → ps.isEmpty = false →
      TypeOut ns (.annotated k ps)
  | logical (lt : LogicalType) (ps : Props) : NumbersOk lt → AnnotOk schemaReserved ps →
      TypeOut ns (.logical lt ps)
  | ref (n : String) (ns' : Option String) (span : Option Span) :
      (∃ ident, refTo ident span ns = .ref n ns' [] span) → TypeOut ns (.ref n ns' [] span)
  | array (t : Schema) (ps : Props) : TypeOut ns t → AnnotOk schemaReserved ps →
      TypeOut ns (.array t ps)
  | map (t : Schema) (ps : Props) : TypeOut ns t → AnnotOk schemaReserved ps →
      TypeOut ns (.map t ps)
  | union (ts : List Schema) : (∀ t ∈ ts, TypeOut ns t) → (∀ t ∈ ts, t.isUnion = false) →
      (ts.map Schema.unionKey).Nodup → TypeOut ns (.union ts false)
  | optional (t : Schema) : TypeOut ns t → t.isUnion = false → t.primKind ≠ some .null →
      TypeOut ns (.union [.prim .null, t] true)

theorem isNull_iff {s : Schema} : s.isNull = true ↔ s = .prim .null := by
  unfold Schema.isNull
  split <;> simp_all

theorem consumedProps_ok {r : List String} {ps : Props} (lt : LogicalType) (h : AnnotOk r ps) :
    AnnotOk r (consumedProps lt ps) := by
  cases lt with
  | decimal p s => exact ((h.erase _).erase _).erase _
  | _ => exact h.erase _

theorem asJavaInt_lt {v : Option Json} {n : Nat} (h : asJavaInt v = some n) : n < 2 ^ 32 := by
  unfold asJavaInt at h
  split at h
  · split at h
    · injection h with h; omega
    · cases h
  · cases h

theorem parseLogicalType_numbers {name : String} {p s : Option Nat} {lt : LogicalType}
    (hp : ∀ n, p = some n → n < 2 ^ 32) (hs : ∀ n, s = some n → n < 2 ^ 32)
    (h : parseLogicalType name p s = some lt) : NumbersOk lt := by
  rintro p' s' rfl
  unfold parseLogicalType at h
  iterate 8 (split at h; · cases h)
  split at h
  · split at h
    · cases h
    · injection h with h
      injection h with h1 h2
      subst h1 h2
      refine ⟨hp _ rfl, ?_⟩
      cases s with
      | none => simp
      | some n => exact hs n rfl
  · cases h

theorem tryPromote_out {ns : Option String} {s : Schema} (h : TypeOut ns s) :
    TypeOut ns (tryPromote s) := by
  cases h with
  | annotated k ps hp hne =>
    simp only [tryPromote]
    split
    · split
      · exact .annotated _ _ hp hne
      · split
        · exact .annotated _ _ hp hne
        · rename_i hl _
          exact .logical _ _ (parseLogicalType_numbers (fun _ => asJavaInt_lt)
            (fun _ => asJavaInt_lt) hl) (consumedProps_ok _ hp)
    · exact .annotated _ _ hp hne
  | prim p => exact .prim p
  | logical lt ps hn hp => exact .logical lt ps hn hp
  | ref n ns' span h => exact .ref n ns' span h
  | array t ps h hp => exact .array t ps h hp
  | map t ps h hp => exact .map t ps h hp
  | union ts h1 h2 h3 => exact .union ts h1 h2 h3
  | optional t h1 h2 h3 => exact .optional t h1 h2 h3

theorem tryPromote_primKind (s : Schema) : (tryPromote s).primKind = s.primKind := by
  unfold tryPromote
  split
  · split
    · split
      · rfl
      · split
        · rfl
        · rename_i h; simpa [Schema.primKind] using h
    · rfl
  · rfl

theorem tryPromote_isUnion (s : Schema) : (tryPromote s).isUnion = s.isUnion := by
  unfold tryPromote
  split
  · split
    · split
      · rfl
      · split <;> rfl
    · rfl
  · rfl

theorem merged_primKind (s : Schema) (ps : Props) :
    (s.withMergedProps ps).primKind = s.primKind := by
  cases s <;> rfl

theorem merged_isUnion (s : Schema) (ps : Props) : (s.withMergedProps ps).isUnion = s.isUnion := by
  cases s <;> rfl

theorem applyToSchema_primKind (s : Schema) (ps : Props) :
    (applyToSchema s ps).primKind = s.primKind := by
  rw [applyToSchema, tryPromote_primKind, merged_primKind]

theorem applyToSchema_isUnion (s : Schema) (ps : Props) :
    (applyToSchema s ps).isUnion = s.isUnion := by
  rw [applyToSchema, tryPromote_isUnion, merged_isUnion]

/-- Annotating a type other than a reference. -/
theorem applyToSchema_out {ns : Option String} {s : Schema} {ps : Props}
    (h : TypeOut ns s) (hp : AnnotOk schemaReserved ps) (hne : ps.isEmpty = false)
    (hr : ∀ n ns' qs sp, s ≠ .ref n ns' qs sp) : TypeOut ns (applyToSchema s ps) := by
  refine tryPromote_out ?_
  cases h with
  | prim p => exact .annotated p ps hp hne
  | annotated k qs hq hq' => exact .annotated _ _ (hq.extend hp) (Props.extend_isEmpty hq')
  | logical lt qs hn hq => exact .logical _ _ hn (hq.extend hp)
  | ref n ns' span h => exact absurd rfl (hr n ns' [] span)
  | array t qs h hq => exact .array _ _ h (hq.extend hp)
  | map t qs h hq => exact .map _ _ h (hq.extend hp)
  | union ts h1 h2 h3 => exact .union ts h1 h2 h3
  | optional t h1 h2 h3 => exact .optional t h1 h2 h3

theorem applyProps_out {ns : Option String} {s : Schema} {ps : Props} (h : TypeOut ns s)
    (hp : AnnotOk schemaReserved ps) (hne : ps.isEmpty = false) (hr : isTypeReference s = false) :
    TypeOut ns (applyProps s ps) := by
  cases h with
  | optional t h1 h2 h3 =>
    simp only [applyProps, Schema.isNull, if_true]
    refine .optional _ (applyToSchema_out h1 hp hne ?_) (by rw [applyToSchema_isUnion, h2])
      (by rw [applyToSchema_primKind]; exact h3)
    intro n ns' qs sp he; subst he; simp [isTypeReference] at hr
  | prim p => exact applyToSchema_out (.prim p) hp hne (by simp)
  | annotated k qs hq hq' => exact applyToSchema_out (.annotated k qs hq hq') hp hne (by simp)
  | logical lt qs hn hq => exact applyToSchema_out (.logical lt qs hn hq) hp hne (by simp)
  | ref n ns' span h => simp [isTypeReference] at hr
  | array t qs h hq => exact applyToSchema_out (.array t qs h hq) hp hne (by simp)
  | map t qs h hq => exact applyToSchema_out (.map t qs h hq) hp hne (by simp)
  | union ts h1 h2 h3 =>
    have : applyProps (.union ts false) ps = applyToSchema (.union ts false) ps := by
      unfold applyProps
      split
      · rename_i he; injection he with _ he; cases he
      · rfl
    rw [this]
    exact applyToSchema_out (.union ts h1 h2 h3) hp hne (by simp)

theorem refTo_out (ident : String) (span : Option Span) (ns : Option String) :
    TypeOut ns (refTo ident span ns) := by
  cases h : splitFullName ident with
  | mk a b =>
    cases b with
    | some ns' =>
      have : refTo ident span ns = .ref a (some ns') [] span := by simp only [refTo, h]
      rw [this]; exact .ref _ _ _ ⟨ident, this⟩
    | none =>
      have : refTo ident span ns = .ref ident ns [] span := by simp only [refTo, h]
      rw [this]; exact .ref _ _ _ ⟨ident, this⟩

theorem refTo_eq (ident : String) (span : Option Span) (ns : Option String) :
    ∃ n ns', refTo ident span ns = .ref n ns' [] span := by
  unfold refTo
  split
  · exact ⟨_, _, rfl⟩
  · exact ⟨_, _, rfl⟩

theorem u32FromStrRadix_lt {r : Nat} {cs : List Char} {n : Nat}
    (h : u32FromStrRadix r cs = some n) : n < 2 ^ 32 := by
  unfold u32FromStrRadix at h
  simp only at h
  split at h
  · split at h
    · injection h with h; subst h; assumption
    · cases h
  · cases h

theorem parseIntegerAsU32_lt {t : String} {n : Nat} (h : parseIntegerAsU32 t = some n) :
    n < 2 ^ 32 := by
  unfold parseIntegerAsU32 at h
  simp only at h
  split at h
  · cases h
  · split at h <;> exact u32FromStrRadix_lt h

/-- The results of `walkPrim`: bare primitives and logical types without properties. -/
theorem walkPrim_cases {p : PrimTok} {s : Schema} (h : walkPrim p = .ok s) :
    (∃ q, s = .prim q) ∨ ∃ lt, NumbersOk lt ∧ s = .logical lt [] := by
  cases p with
  | prim q => simp only [walkPrim, Except.ok.injEq] at h; exact Or.inl ⟨q, h.symm⟩
  | decimal a sp b =>
    simp only [walkPrim] at h
    split at h
    · cases h
    · rename_i hp
      split at h
      · cases h
      · split at h
        · cases h
        · rename_i hs
          split at h
          · cases h
          · injection h with h
            refine Or.inr ⟨_, ?_, h.symm⟩
            rintro p' s' he
            injection he with h1 h2
            subst h1 h2
            refine ⟨parseIntegerAsU32_lt hp, ?_⟩
            cases b with
            | none => injection hs with hs; subst hs; simp
            | some t => exact parseIntegerAsU32_lt hs
  | date | time | timestamp | localTimestamp | uuid =>
    simp only [walkPrim, Except.ok.injEq] at h; exact Or.inr ⟨_, by rintro _ _ ⟨⟩, h.symm⟩

theorem wrapOptional_out {ns : Option String} {s t : Schema} {o : Bool} {sp : Option Span}
    (h : TypeOut ns s)
    (hu : s.isUnion = false) (hk : s.primKind = some .null → s = .prim .null)
    (hw : wrapOptional o sp s = .ok t) : TypeOut ns t := by
  unfold wrapOptional at hw
  split at hw
  · split at hw
    · cases hw
    · rename_i hn
      injection hw with hw; subst hw
      exact .optional _ h hu fun hc => hn (hk hc)
  · injection hw with hw; subst hw; exact h

theorem firstUnion_none {ts : List Schema} {sps : List (Option Span)} :
    firstUnion ts sps = none ↔ ∀ t ∈ ts, t.isUnion = false := by
  induction ts generalizing sps with
  | nil => simp [firstUnion]
  | cons t ts ih =>
    rw [firstUnion]
    cases h : t.isUnion with
    | true => simp [h]
    | false => simp [h, ih]

theorem firstDuplicate_none {seen ks : List String} {sps : List (Option Span)}
    (h : firstDuplicate seen ks sps = none) : ks.Nodup ∧ ∀ k ∈ ks, k ∉ seen := by
  induction ks generalizing seen sps with
  | nil => simp
  | cons k ks ih =>
    simp only [firstDuplicate] at h
    split at h
    · cases h
    · rename_i hk
      obtain ⟨h1, h2⟩ := ih h
      have hk' : k ∉ seen := by simpa using hk
      refine ⟨List.nodup_cons.mpr ⟨fun hm => h2 k hm (by simp), h1⟩, fun j hj => ?_⟩
      rcases List.mem_cons.mp hj with e | e
      · rw [e]; exact hk'
      · exact fun hs => h2 j e (List.mem_append_left _ hs)

theorem checkUnion_out {ns : Option String} {ts : List Schema} {s : Schema}
    {sps : List (Option Span)} (h : ∀ t ∈ ts, TypeOut ns t) (hc : checkUnion ts sps = .ok s) : TypeOut ns s := by
  unfold checkUnion at hc
  split at hc
  · cases hc
  · rename_i hu
    split at hc
    · cases hc
    · rename_i hd
      injection hc with hc; subst hc
      exact .union ts h (firstUnion_none.mp hu) (firstDuplicate_none hd).1

section
variable [CharTables] [CaseTables]

theorem annotStep_ok (ctx : PropCtx) (acc : SchemaProps) (name : String) (v : Json)
    (sp : Option Span) (hv : Held v) (h : AnnotOk ctx.reserved acc.props) :
    Post (annotStep ctx acc name v sp) fun p => AnnotOk ctx.reserved p.props := by
  unfold annotStep
  split
  · split
    · exact .pure h
    · exact .fail
  · split
    · split
      · exact (Post.any _).bind fun _ _ => .pure h
      · exact .fail
    · split
      · split
        · exact .pure h
        · exact .fail
      · split
        · exact .fail
        · rename_i hr
          refine .pure ⟨⟨h.1.1.insert _ _, fun x hx => ?_⟩, h.2.insert (by simpa using hr) _⟩
          rcases Props.mem_insert hx with hx | hx
          · exact h.1.2 x hx
          · rw [hx]; exact hv

variable [FloatTables]

theorem walkAnnots_ok (ctx : PropCtx) (as : List Annot) : ∀ acc : SchemaProps,
    AnnotOk ctx.reserved acc.props →
    Post (walkAnnots ctx acc as) fun p => AnnotOk ctx.reserved p.props := by
  induction as with
  | nil => intro acc h; exact .pure h
  | cons a as ih =>
    intro acc h
    exact (Post.lift fun v hv => walkJson_held _ v hv).bind fun v hv =>
      (annotStep_ok ctx acc _ v _ hv h).bind fun p hp => ih p hp

omit [CharTables] [CaseTables] [FloatTables] in
theorem finishFullType_out {ns : Option String} {ps : Props} {s : Schema} {sp : Option Span}
    (h : TypeOut ns s) (hp : AnnotOk schemaReserved ps) : Post (finishFullType ps sp s) (TypeOut ns) := by
  unfold finishFullType
  split
  · exact .pure h
  · rename_i hne
    split
    · exact .fail
    · rename_i hr
      exact (Post.any _).bind fun _ _ =>
        .pure (applyProps_out h hp (by simpa using hne) (by simpa using hr))

mutual
theorem walkFullType_out (ns : Option String) :
    ∀ t : FullType, Post (walkFullType ns t) (TypeOut ns)
  | .mk annots type _ => by
      simp only [walkFullType]
      exact (walkAnnots_ok bareCtx annots {} (annotOk_nil _)).bind fun p hp =>
        (walkPlainType_out ns type).bind fun s hs => finishFullType_out hs hp
theorem walkPlainType_out (ns : Option String) :
    ∀ t : PlainType, Post (walkPlainType ns t) (TypeOut ns)
  | .array t => by
      simp only [walkPlainType]
      exact (walkFullType_out ns t).bind fun s hs => .pure (.array s [] hs (annotOk_nil _))
  | .map t => by
      simp only [walkPlainType]
      exact (walkFullType_out ns t).bind fun s hs => .pure (.map s [] hs (annotOk_nil _))
  | .union ts => by
      simp only [walkPlainType]
      exact (walkFullTypes_out ns ts).bind fun ss hs => .lift fun s hc => checkUnion_out hs hc
  | .prim p o _ => by
      simp only [walkPlainType]
      refine (Post.lift fun s hs => hs).bind fun s hs => .lift fun t ht => ?_
      rcases walkPrim_cases hs with ⟨q, rfl⟩ | ⟨lt, hn, rfl⟩
      · exact wrapOptional_out (.prim q) rfl (fun h => by
          simp only [Schema.primKind, Option.some.injEq] at h; rw [h]) ht
      · exact wrapOptional_out (.logical lt [] hn (annotOk_nil _)) rfl (fun h => by
          cases lt <;> simp [Schema.primKind, LogicalType.base] at h) ht
  | .named ident span o => by
      simp only [walkPlainType]
      refine .lift fun t ht => ?_
      obtain ⟨n, ns', he⟩ := refTo_eq (identifierText ident) span ns
      refine wrapOptional_out (refTo_out _ _ _) ?_ ?_ ht
      · rw [he]; rfl
      · rw [he]; intro h; simp [Schema.primKind] at h
theorem walkFullTypes_out (ns : Option String) :
    ∀ ts : List FullType, Post (walkFullTypes ns ts) fun ss => ∀ s ∈ ss, TypeOut ns s
  | [] => by simp only [walkFullTypes]; exact .pure (by simp)
  | t :: ts => by
      simp only [walkFullTypes]
      exact (walkFullType_out ns t).bind fun s hs => (walkFullTypes_out ns ts).bind fun ss hss =>
        .pure fun x hx => by
          rcases List.mem_cons.mp hx with e | e
          · rw [e]; exact hs
          · exact hss x e
end

end
end Avdl
