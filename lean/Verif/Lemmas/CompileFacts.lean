import Verif.Lemmas.CompileTerm
/-!
# Facts about traces, messages and undefined names
-/

namespace Avdl
open Spec

section
variable [CharTables] [FloatTables] [CaseTables]

/-! ## Traces are determined -/

/-- Two event lists agree as far as both go. -/
def Agree (es : List Event) (e : Ending) (es' : List Event) (e' : Ending) : Prop :=
  (e = .cut ∧ es <+: es') ∨ (e' = .cut ∧ es' <+: es) ∨ (es = es' ∧ e = e')

omit [CharTables] [FloatTables] [CaseTables] in
theorem Agree.cons {es es' : List Event} {e e' : Ending} (ev : Event) (h : Agree es e es' e') :
    Agree (ev :: es) e (ev :: es') e' := by
  rcases h with ⟨h, h'⟩ | ⟨h, h'⟩ | ⟨h, h'⟩
  · exact .inl ⟨h, List.cons_prefix_cons.mpr ⟨rfl, h'⟩⟩
  · exact .inr (.inl ⟨h, List.cons_prefix_cons.mpr ⟨rfl, h'⟩⟩)
  · exact .inr (.inr ⟨by rw [h], h'⟩)

omit [CharTables] [FloatTables] [CaseTables] in
theorem Agree.append {es es' : List Event} {e e' : Ending} (l : List Event)
    (h : Agree es e es' e') : Agree (l ++ es) e (l ++ es') e' := by
  induction l with
  | nil => exact h
  | cons x l ih => exact ih.cons x

theorem Spec.Trace.det {w : World} {dirs : List Path} {dir : Path} {seen : List Path}
    {items : List DeclItem} {es : List Event} {e : Ending}
    (h : Trace w dirs dir seen items es e) : ∀ {es' e'},
    Trace w dirs dir seen items es' e' → Agree es e es' e' := by
  induction h with
  | nil =>
    intro es' e' h'
    cases h' with
    | nil => exact .inr (.inr ⟨rfl, rfl⟩)
    | cut => exact .inr (.inl ⟨rfl, List.nil_prefix⟩)
  | cut => intro es' e' _; exact .inl ⟨rfl, List.nil_prefix⟩
  | type _ ih =>
    intro es' e' h'
    cases h' with
    | cut => exact .inr (.inl ⟨rfl, List.nil_prefix⟩)
    | type h' => exact (ih h').cons _
  | notFound hu =>
    intro es' e' h'
    cases h' with
    | cut => exact .inr (.inl ⟨rfl, List.nil_prefix⟩)
    | notFound _ => exact .inr (.inr ⟨rfl, rfl⟩)
    | notCanonical hq => exact absurd hq (not_foundIn hu _)
    | again hp | badJson hp | schema hp | protocol hp | badIdl hp | idl hp | idlEnds hp =>
      exact absurd hp (not_importsTo_of_notFound hu _)
  | notCanonical hu hc =>
    intro es' e' h'
    cases h' with
    | cut => exact .inr (.inl ⟨rfl, List.nil_prefix⟩)
    | notFound hq => exact absurd hu (not_foundIn hq _)
    | notCanonical _ _ => exact .inr (.inr ⟨rfl, rfl⟩)
    | again hp | badJson hp | schema hp | protocol hp | badIdl hp | idl hp | idlEnds hp =>
      exact absurd hp (not_importsTo_of_notCanonical hu hc _)
  | @again dir seen i p items es e hp hm _ ih =>
    intro es' e' h'
    cases h' with
    | cut => exact .inr (.inl ⟨rfl, List.nil_prefix⟩)
    | notFound hu => exact absurd hp (not_importsTo_of_notFound hu _)
    | notCanonical hu hc => exact absurd hp (not_importsTo_of_notCanonical hu hc _)
    | again _ _ h' => exact ih h'
    | badJson hp' hm' | schema hp' hm' | protocol hp' hm' | badIdl hp' hm' | idl hp' hm'
    | idlEnds hp' hm' =>
      rw [hp'.unique hp] at hm'; exact absurd hm hm'
  | @badJson dir seen i p e items hp hm hk hb =>
    intro es' e' h'
    cases h' with
    | cut => exact .inr (.inl ⟨rfl, List.nil_prefix⟩)
    | notFound hu => exact absurd hp (not_importsTo_of_notFound hu _)
    | notCanonical hu hc => exact absurd hp (not_importsTo_of_notCanonical hu hc _)
    | again hp' hm' => rw [hp'.unique hp] at hm'; exact absurd hm' hm
    | badJson hp' _ _ hb' =>
      rw [hp'.unique hp, hb] at hb'; injection hb' with hb'; subst hb'
      exact .inr (.inr ⟨rfl, rfl⟩)
    | schema hp' _ _ hj | protocol hp' _ _ hj =>
      rw [hp'.unique hp, hb] at hj; cases hj
    | badIdl _ _ hk' | idl _ _ hk' | idlEnds _ _ hk' => exact absurd hk' hk
  | @schema dir seen i p j items es e hp hm hk hj _ ih =>
    intro es' e' h'
    cases h' with
    | cut => exact .inr (.inl ⟨rfl, List.nil_prefix⟩)
    | notFound hu => exact absurd hp (not_importsTo_of_notFound hu _)
    | notCanonical hu hc => exact absurd hp (not_importsTo_of_notCanonical hu hc _)
    | again hp' hm' => rw [hp'.unique hp] at hm'; exact absurd hm' hm
    | badJson hp' _ _ hb => rw [hp'.unique hp, hj] at hb; cases hb
    | schema hp' _ _ hj' h' =>
      have he := hp'.unique hp
      subst he
      rw [hj] at hj'; injection hj' with hj'; subst hj'
      exact (ih h').cons _
    | protocol _ _ hk' | badIdl _ _ hk' | idl _ _ hk' | idlEnds _ _ hk' =>
      rw [hk] at hk'; cases hk'
  | @protocol dir seen i p j items es e hp hm hk hj _ ih =>
    intro es' e' h'
    cases h' with
    | cut => exact .inr (.inl ⟨rfl, List.nil_prefix⟩)
    | notFound hu => exact absurd hp (not_importsTo_of_notFound hu _)
    | notCanonical hu hc => exact absurd hp (not_importsTo_of_notCanonical hu hc _)
    | again hp' hm' => rw [hp'.unique hp] at hm'; exact absurd hm' hm
    | badJson hp' _ _ hb => rw [hp'.unique hp, hj] at hb; cases hb
    | protocol hp' _ _ hj' h' =>
      have he := hp'.unique hp
      subst he
      rw [hj] at hj'; injection hj' with hj'; subst hj'
      exact (ih h').cons _
    | schema _ _ hk' | badIdl _ _ hk' | idl _ _ hk' | idlEnds _ _ hk' =>
      rw [hk] at hk'; cases hk'
  | @badIdl dir seen i p e items hp hm hk hb =>
    intro es' e' h'
    cases h' with
    | cut => exact .inr (.inl ⟨rfl, List.nil_prefix⟩)
    | notFound hu => exact absurd hp (not_importsTo_of_notFound hu _)
    | notCanonical hu hc => exact absurd hp (not_importsTo_of_notCanonical hu hc _)
    | again hp' hm' => rw [hp'.unique hp] at hm'; exact absurd hm' hm
    | badIdl hp' _ _ hb' =>
      rw [hp'.unique hp, hb] at hb'; injection hb' with hb'; subst hb'
      exact .inr (.inr ⟨rfl, rfl⟩)
    | idl hp' _ _ hj | idlEnds hp' _ _ hj =>
      rw [hp'.unique hp, hb] at hj; cases hj
    | badJson _ _ hk' => exact absurd hk hk'
    | schema _ _ hk' | protocol _ _ hk' => rw [hk] at hk'; cases hk'
  | @idl dir seen i p file decls ws items es seen1 es1 e hp hm hk hj hn _ ihn ih =>
    intro es' e' h'
    cases h' with
    | cut => exact .inr (.inl ⟨rfl, List.nil_prefix⟩)
    | notFound hu => exact absurd hp (not_importsTo_of_notFound hu _)
    | notCanonical hu hc => exact absurd hp (not_importsTo_of_notCanonical hu hc _)
    | again hp' hm' => rw [hp'.unique hp] at hm'; exact absurd hm' hm
    | badIdl hp' _ _ hb => rw [hp'.unique hp, hj] at hb; cases hb
    | badJson _ _ hk' => exact absurd hk hk'
    | schema _ _ hk' | protocol _ _ hk' => rw [hk] at hk'; cases hk'
    | idl hp' _ _ hj' hn' hr' =>
      have he := hp'.unique hp
      subst he
      rw [hj] at hj'; injection hj' with hj'; injection hj' with hf hj'
      injection hj' with hd hw
      subst hf hd hw
      rcases ihn hn' with ⟨h, _⟩ | ⟨h, _⟩ | ⟨h1, h2⟩
      · cases h
      · cases h
      · injection h2 with h2
        subst h1 h2
        exact ((ih hr').append es).cons _
    | idlEnds hp' _ _ hj' hn' hne =>
      have he := hp'.unique hp
      subst he
      rw [hj] at hj'; injection hj' with hj'; injection hj' with hf hj'
      injection hj' with hd hw
      subst hf hd hw
      rcases ihn hn' with ⟨h, _⟩ | ⟨h, hpre⟩ | ⟨_, h2⟩
      · cases h
      · exact .inr (.inl ⟨h, List.cons_prefix_cons.mpr
          ⟨rfl, List.IsPrefix.trans hpre (List.prefix_append ..)⟩⟩)
      · exact absurd h2.symm (hne _)
  | @idlEnds dir seen i p file decls ws items es e hp hm hk hj hn hne ihn =>
    intro es' e' h'
    cases h' with
    | cut => exact .inr (.inl ⟨rfl, List.nil_prefix⟩)
    | notFound hu => exact absurd hp (not_importsTo_of_notFound hu _)
    | notCanonical hu hc => exact absurd hp (not_importsTo_of_notCanonical hu hc _)
    | again hp' hm' => rw [hp'.unique hp] at hm'; exact absurd hm' hm
    | badIdl hp' _ _ hb => rw [hp'.unique hp, hj] at hb; cases hb
    | badJson _ _ hk' => exact absurd hk hk'
    | schema _ _ hk' | protocol _ _ hk' => rw [hk] at hk'; cases hk'
    | idl hp' _ _ hj' hn' hr' =>
      have he := hp'.unique hp
      subst he
      rw [hj] at hj'; injection hj' with hj'; injection hj' with hf hj'
      injection hj' with hd hw
      subst hf hd hw
      rcases ihn hn' with ⟨h, hpre⟩ | ⟨h, _⟩ | ⟨_, h2⟩
      · exact .inl ⟨h, List.cons_prefix_cons.mpr
          ⟨rfl, List.IsPrefix.trans hpre (List.prefix_append ..)⟩⟩
      · cases h
      · exact absurd h2 (hne _)
    | idlEnds hp' _ _ hj' hn' hne =>
      have he := hp'.unique hp
      subst he
      rw [hj] at hj'; injection hj' with hj'; injection hj' with hf hj'
      injection hj' with hd hw
      subst hf hd hw
      exact (ihn hn').cons _

/-! ## The effect of events -/

omit [FloatTables] [CaseTables] in
theorem Event.run_effect {w : World} {fuel : Nat} {ev : Event} {k k' : Core}
    (h : ev.run w fuel k = .ok k') :
    k'.registry = ev.types.foldl Props.attempt k.registry ∧
    k'.messages = extendMessages k.messages ev.messages ∧
    k'.warnings = k.warnings ++ ev.reports w ∧
    ∀ s span spans, ev = .type s span spans → k.registry.register s = .ok k'.registry ∧
      validateRecordFieldDefaults k'.registry.find? fuel s = some [] := by
  cases ev with
  | type s span spans =>
    simp only [Event.run] at h
    cases hr : k.registry.register s with
    | error e => simp [hr] at h
    | ok r =>
      simp only [hr] at h
      cases hv : validateRecordFieldDefaults r.find? fuel s with
      | none => simp [hv] at h
      | some l =>
        cases l with
        | cons a as => simp [hv] at h
        | nil =>
          simp only [hv] at h
          injection h with h
          subst h
          refine ⟨?_, rfl, by simp [Event.reports], ?_⟩
          · simp [Event.types, Props.attempt, hr]
          · intro s' span' spans' he
            injection he with h1 h2
            subst h1
            exact ⟨hr, hv⟩
  | schema p j span =>
    simp only [Event.run] at h
    cases hi : importSchema j k.registry with
    | error e => simp [hi] at h
    | ok r =>
      simp only [hi] at h
      injection h with h
      subst h
      exact ⟨importSchema_eq hi, rfl, by simp [Event.reports], by simp⟩
  | protocol p j span =>
    simp only [Event.run] at h
    cases hi : importProtocol j k.registry with
    | error e => simp [hi] at h
    | ok rm =>
      obtain ⟨r, ms⟩ := rm
      simp only [hi] at h
      injection h with h
      subst h
      obtain ⟨h1, h2⟩ := importProtocol_eq hi
      exact ⟨h1, by simp [Event.messages, h2], by simp [Event.reports], by simp⟩
  | idl p as file ws =>
    simp only [Event.run] at h
    injection h with h
    subst h
    exact ⟨rfl, rfl, rfl, by simp⟩

omit [CharTables] [FloatTables] [CaseTables] in
theorem extendMessages_append (ms a b : List (String × Message)) :
    extendMessages ms (a ++ b) = extendMessages (extendMessages ms a) b := by
  simp [extendMessages]

omit [FloatTables] [CaseTables] in
theorem runEvents_effect {w : World} {fuel : Nat} {es : List Event} : ∀ {k k' : Core},
    runEvents w fuel es k = .ok k' →
    k'.registry = (es.flatMap Event.types).foldl Props.attempt k.registry ∧
    k'.messages = extendMessages k.messages (es.flatMap Event.messages) ∧
    k'.warnings = k.warnings ++ es.flatMap (Event.reports w) := by
  induction es with
  | nil => intro k k' h; cases h; simp [extendMessages]
  | cons ev es ih =>
    intro k k' h
    simp only [runEvents] at h
    split at h
    · cases h
    · rename_i k1 h1
      obtain ⟨a1, a2, a3, _⟩ := Event.run_effect h1
      obtain ⟨b1, b2, b3⟩ := ih h
      refine ⟨?_, ?_, ?_⟩
      · rw [b1, a1, List.flatMap_cons, List.foldl_append]
      · rw [b2, a2, List.flatMap_cons, extendMessages_append]
      · rw [b3, a3, List.flatMap_cons, List.append_assoc]

omit [FloatTables] [CaseTables] in
theorem foldl_attempt_mem {l : List Schema} : ∀ {r : Registry} {kt : String × Schema}, kt ∈ r →
    kt ∈ l.foldl Props.attempt r := by
  induction l with
  | nil => exact fun h => h
  | cons s l ih =>
    intro r kt h
    refine ih ?_
    rcases Props.C08_attempt r s with ⟨full, _, _, _, he⟩ | ⟨_, _, he⟩
    · rw [he]; exact List.mem_append_left _ h
    · rw [he]; exact h

omit [FloatTables] [CaseTables] in
/-- Declared types are registered. -/
theorem runEvents_declared {w : World} {fuel : Nat} {es : List Event} : ∀ {k k' : Core},
    runEvents w fuel es k = .ok k' → ∀ s span spans, Event.type s span spans ∈ es →
    Props.Acceptable s ∧ ∃ full, s.fullName? = some full ∧ (full, s) ∈ k'.registry := by
  induction es with
  | nil => intro k k' _ s span spans h; cases h
  | cons ev es ih =>
    intro k k' h s span spans hm
    simp only [runEvents] at h
    split at h
    · cases h
    · rename_i k1 h1
      rcases List.mem_cons.mp hm with he | hm
      · obtain ⟨_, _, _, a4⟩ := Event.run_effect h1
        obtain ⟨hr, _⟩ := a4 s span spans he.symm
        obtain ⟨ha, full, hf, _, hk⟩ := (Props.register_ok_iff _ _ _).mp hr
        refine ⟨ha, full, hf, ?_⟩
        rw [(runEvents_effect h).1]
        refine foldl_attempt_mem ?_
        rw [hk]; simp
      · exact ih h s span spans hm

/-! ## Messages -/

omit [CharTables] [FloatTables] [CaseTables] in
theorem lastEntry_append (a b : List (String × Message)) (n : String) :
    lastEntry (a ++ b) n = (lastEntry b n).or (lastEntry a n) := by
  simp only [lastEntry, List.reverse_append, List.find?_append]
  cases List.find? (fun nm => nm.1 == n) b.reverse <;> simp

omit [CharTables] [FloatTables] [CaseTables] in
theorem extendMessages_spec (new : List (String × Message)) : ∀ (ms : List (String × Message)),
    (ms.map Prod.fst).Nodup → ((extendMessages ms new).map Prod.fst).Nodup ∧
      ∀ n m, (n, m) ∈ extendMessages ms new ↔
        lastEntry new n = some m ∨ (lastEntry new n = none ∧ (n, m) ∈ ms) := by
  induction new with
  | nil => intro ms h; simp [extendMessages, lastEntry, h]
  | cons a l ih =>
    intro ms h
    obtain ⟨an, am⟩ := a
    have hstep : ((insertMessage ms an am).map Prod.fst).Nodup := by
      simp only [insertMessage, List.map_append, List.map_cons, List.map_nil]
      rw [List.nodup_append]
      refine ⟨h.sublist (List.Sublist.map _ (List.filter_sublist ..)), by simp, ?_⟩
      intro x hx y hy
      simp only [List.mem_map, List.mem_filter] at hx
      obtain ⟨z, ⟨_, hz⟩, rfl⟩ := hx
      simp only [List.mem_cons, List.not_mem_nil, or_false] at hy
      subst hy
      simpa using hz
    have hx : extendMessages ms ((an, am) :: l) = extendMessages (insertMessage ms an am) l := rfl
    rw [hx]
    obtain ⟨h1, h2⟩ := ih _ hstep
    refine ⟨h1, fun n m => ?_⟩
    rw [h2, show ((an, am) :: l) = [(an, am)] ++ l from rfl, lastEntry_append]
    cases hl : lastEntry l n with
    | some m' => simp
    | none =>
      simp only [reduceCtorEq, false_or, true_and, Option.none_or]
      by_cases hn : an = n
      · subst hn
        simp [lastEntry, insertMessage, eq_comm]
      · simp only [insertMessage, List.mem_append, List.mem_filter, List.mem_cons,
          List.not_mem_nil, or_false, lastEntry]
        simp [hn, Ne.symm hn]

/-! ## Undefined names -/

omit [CharTables] [FloatTables] [CaseTables] in
theorem sortInsert_perm {α : Type} (le : α → α → Bool) (a : α) (l : List α) :
    (sortInsert le a l).Perm (a :: l) := by
  induction l with
  | nil => exact .refl _
  | cons b bs ih =>
    simp only [sortInsert]
    split
    · exact .refl _
    · exact (ih.cons b).trans (.swap ..)

omit [CharTables] [FloatTables] [CaseTables] in
theorem stableSort_perm {α : Type} (le : α → α → Bool) (l : List α) :
    (stableSort le l).Perm l := by
  induction l with
  | nil => exact .refl _
  | cons a as ih => exact (sortInsert_perm le a _).trans (ih.cons a)

omit [CharTables] [FloatTables] [CaseTables] in
theorem dedupNames_spec (l : List (String × Option Span)) : ∀ seen,
    ((dedupNames seen l).map Prod.fst).Nodup ∧
    (∀ x, x ∈ (dedupNames seen l).map Prod.fst ↔ x ∉ seen ∧ x ∈ l.map Prod.fst) ∧
    ∀ xs ∈ dedupNames seen l, xs ∈ l := by
  induction l with
  | nil => intro seen; simp [dedupNames]
  | cons a l ih =>
    intro seen
    simp only [dedupNames]
    by_cases h : seen.contains a.1 = true
    · rw [if_pos h]
      obtain ⟨h1, h2, h3⟩ := ih seen
      have h' : a.1 ∈ seen := by simpa using h
      refine ⟨h1, fun x => ?_, fun xs hx => List.mem_cons_of_mem _ (h3 xs hx)⟩
      rw [h2, List.map_cons, List.mem_cons]
      constructor
      · rintro ⟨a1, a2⟩; exact ⟨a1, .inr a2⟩
      · rintro ⟨a1, rfl | a2⟩
        · exact absurd h' a1
        · exact ⟨a1, a2⟩
    · rw [if_neg h]
      obtain ⟨h1, h2, h3⟩ := ih (a.1 :: seen)
      have h' : a.1 ∉ seen := by simpa using h
      refine ⟨?_, fun x => ?_, fun xs hx => ?_⟩
      · rw [List.map_cons, List.nodup_cons]
        refine ⟨?_, h1⟩
        rw [h2]
        simp
      · rw [List.map_cons, List.mem_cons, h2, List.map_cons, List.mem_cons, List.mem_cons]
        constructor
        · rintro (rfl | ⟨a1, a2⟩)
          · exact ⟨h', .inl rfl⟩
          · exact ⟨fun h => a1 (.inr h), .inr a2⟩
        · rintro ⟨a1, rfl | a2⟩
          · exact .inl rfl
          · by_cases hx : x = a.1
            · exact .inl hx
            · exact .inr ⟨fun h => h.elim hx a1, a2⟩
      · rcases List.mem_cons.mp hx with rfl | hx
        · exact List.mem_cons_self ..
        · exact List.mem_cons_of_mem _ (h3 xs hx)

omit [CharTables] [FloatTables] [CaseTables] in
theorem undefinedNames_perm (file : IdlFile) (r : Registry) :
    (undefinedNames file r).Perm
      (dedupNames [] (r.validateReferences ++ fileUnresolved r file)) :=
  (List.filter_append_perm _ _).trans (stableSort_perm _ _)

/-! ## `parse_and_resolve` -/

omit [FloatTables] [CaseTables] in
theorem Event.run_warnings {w : World} {fuel : Nat} (ev : Event) (r : Registry)
    (m : List (String × Message)) (x y : List Report) :
    (∀ e, ev.run w fuel ⟨r, m, x⟩ = .error e → ev.run w fuel ⟨r, m, y⟩ = .error e) ∧
    (∀ k, ev.run w fuel ⟨r, m, x⟩ = .ok k →
      ev.run w fuel ⟨r, m, y⟩ = .ok ⟨k.registry, k.messages, y ++ ev.reports w⟩) := by
  cases ev with
  | type s span =>
    simp only [Event.run, Event.reports, List.append_nil]
    cases r.register s with
    | error e => simp
    | ok r' =>
      simp only
      cases validateRecordFieldDefaults r'.find? fuel s with
      | none => simp
      | some l => cases l <;> simp
  | schema p j span =>
    simp only [Event.run, Event.reports, List.append_nil]
    cases importSchema j r <;> simp
  | protocol p j span =>
    simp only [Event.run, Event.reports, List.append_nil]
    cases importProtocol j r <;> simp
  | idl p as file ws => simp [Event.run, Event.reports]

omit [FloatTables] [CaseTables] in
theorem runEvents_warnings {w : World} {fuel : Nat} (es : List Event) :
    ∀ {r : Registry} {m : List (String × Message)} {x : List Report} (y : List Report) {k : Core},
    runEvents w fuel es ⟨r, m, x⟩ = .ok k →
    runEvents w fuel es ⟨r, m, y⟩ =
      .ok ⟨k.registry, k.messages, y ++ es.flatMap (Event.reports w)⟩ := by
  induction es with
  | nil => intro r m x y k h; cases h; simp [runEvents]
  | cons ev es ih =>
    intro r m x y k h
    simp only [runEvents] at h ⊢
    cases he : ev.run w fuel ⟨r, m, x⟩ with
    | error e => simp [he] at h
    | ok k1 =>
      simp only [he] at h
      rw [(Event.run_warnings ev r m x y).2 k1 he]
      simp only
      rw [ih (y ++ ev.reports w) h]
      simp

/-- The JSON files a successful `parse_and_resolve` imports. -/
theorem parseAndResolve_json {w : World} {dirs : List Path} {fuel : Nat} {text name : String}
    {dir : Path} {path : Option Path} {f : IdlFile} {c : Ctx}
    (h : parseAndResolve w dirs fuel text name dir path Ctx.new = (.ok f, c)) :
    ∃ file decls ws es seen, parseIdl w text name = .ok (file, decls, ws) ∧
      Trace w dirs dir path.toList decls es (.finished seen) ∧
      c.jsonImports.map Prod.fst = es.filterMap Event.jsonPath? := by
  unfold parseAndResolve at h
  cases hp : parseIdl w text name with
  | error e => simp [hp] at h
  | ok fdw =>
    obtain ⟨file, decls, ws⟩ := fdw
    simp only [hp] at h
    have hf := processDecls_follows w dirs fuel fuel decls dir
      { Ctx.new with warnings := Ctx.new.warnings ++ ws.map fun x => ⟨x, none⟩,
                     imported := path.toList ++ Ctx.new.imported }
    generalize processDecls w dirs fuel fuel decls dir _ = r at h hf
    cases hf with
    | @done es seen c' h1 h2 h3 h4 =>
      simp only at h
      injection h with ha hb
      subst hb
      have h1' : Trace w dirs dir path.toList decls es (.finished seen) := by
        simpa [Ctx.new] using h1
      exact ⟨file, decls, ws, es, seen, rfl, h1', by simpa [Ctx.new] using h4⟩
    | stuck => injection h with h _; cases h
    | failed => injection h with h _; cases h
    | timeout => injection h with h _; cases h

/-- A successful `parse_and_resolve`. -/
theorem parseAndResolve_ok {w : World} {dirs : List Path} {fuel : Nat} {text name : String}
    {dir : Path} {path : Option Path} {f : IdlFile} {c : Ctx}
    (h : parseAndResolve w dirs fuel text name dir path Ctx.new = (.ok f, c)) :
    ∃ file decls ws es seen k, parseIdl w text name = .ok (file, decls, ws) ∧
      Trace w dirs dir path.toList decls es (.finished seen) ∧
      runEvents w fuel es ⟨[], [], []⟩ = .ok k ∧ c.registry = k.registry ∧
      c.messages = k.messages ∧
      c.warnings = ws.map (fun x => ⟨x, none⟩) ++ es.flatMap (Event.reports w) ∧
      f = finishFile file c := by
  unfold parseAndResolve at h
  cases hp : parseIdl w text name with
  | error e => simp [hp] at h
  | ok fdw =>
    obtain ⟨file, decls, ws⟩ := fdw
    simp only [hp] at h
    have hf := processDecls_follows w dirs fuel fuel decls dir
      { Ctx.new with warnings := Ctx.new.warnings ++ ws.map fun x => ⟨x, none⟩,
                     imported := path.toList ++ Ctx.new.imported }
    generalize processDecls w dirs fuel fuel decls dir _ = r at h hf
    cases hf with
    | @done es seen c' h1 h2 h3 _ =>
      simp only at h
      injection h with ha hb
      injection ha with ha
      subst hb
      have h1' : Trace w dirs dir path.toList decls es (.finished seen) := by
        simpa [Ctx.new] using h1
      have h2' := runEvents_warnings es [] h2
      refine ⟨file, decls, ws, es, seen, _, rfl, h1', h2', rfl, rfl, ?_, ha.symm⟩
      have := (runEvents_effect h2).2.2
      simpa [Ctx.core, Ctx.new] using this
    | stuck => simp at h
    | failed => simp at h
    | timeout => simp at h

/-- A failing `parse_and_resolve`: the warnings are those raised. -/
theorem parseAndResolve_error {w : World} {dirs : List Path} {fuel : Nat} {text name : String}
    {dir : Path} {path : Option Path} {e : CompileErr} {c : Ctx}
    (h : parseAndResolve w dirs fuel text name dir path Ctx.new = (.error e, c))
    (hne : e ≠ .timeout) : Raises w dirs fuel text name dir path c.warnings := by
  unfold parseAndResolve at h
  cases hp : parseIdl w text name with
  | error e' =>
    simp only [hp] at h
    injection h with ha hb
    rw [← hb]
    exact .unread hp
  | ok fdw =>
    obtain ⟨file, decls, ws⟩ := fdw
    simp only [hp] at h
    have hf := processDecls_follows w dirs fuel fuel decls dir
      { Ctx.new with warnings := Ctx.new.warnings ++ ws.map fun x => ⟨x, none⟩,
                     imported := path.toList ++ Ctx.new.imported }
    generalize processDecls w dirs fuel fuel decls dir _ = r at h hf
    cases hf with
    | done => simp at h
    | @stuck es k e' c' h1 h2 h3 =>
      simp only at h
      injection h with ha hb
      subst hb
      have h1' : Trace w dirs dir path.toList decls es (.stuck e') := by
        simpa [Ctx.new] using h1
      rw [h3, (runEvents_effect h2).2.2]
      have := Raises.stuck (fuel := fuel) (name := name) (text := text) hp h1'
        (runEvents_warnings es [] h2)
      simpa [Ctx.core, Ctx.new] using this
    | @failed es ev k e' c' h1 h2 h3 h4 =>
      simp only at h
      injection h with ha hb
      subst hb
      have h1' : Trace w dirs dir path.toList decls (es ++ [ev]) .cut := by
        simpa [Ctx.new] using h1
      rw [h4, (runEvents_effect h2).2.2]
      have := Raises.failed (fuel := fuel) (name := name) (text := text) hp h1'
        (runEvents_warnings es [] h2) ((Event.run_warnings ev _ _ _ _).1 _ h3)
      simpa [Ctx.core, Ctx.new] using this
    | timeout =>
      simp only at h
      injection h with ha _
      injection ha with ha
      exact absurd ha.symm hne

end

end Avdl
