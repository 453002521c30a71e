import Verif.Spec.Compile
/-!
# The compiler follows the trace
-/

namespace Avdl
open Spec

theorem searchDirs_spec (w : World) (file : String) (dirs : List Path) :
    match searchDirs w file dirs with
    | none => ∀ d ∈ dirs, w.exists_ (w.join d file) = false
    | some p => FoundIn w dirs file p := by
  induction dirs with
  | nil => simp [searchDirs]
  | cons d ds ih =>
    simp only [searchDirs]
    by_cases h : w.exists_ (w.join d file) = true
    · rw [if_pos h]
      exact ⟨0, d, rfl, rfl, h, fun j d' hj => absurd hj (by omega)⟩
    · rw [if_neg h]
      have h' : w.exists_ (w.join d file) = false := by simpa using h
      cases hs : searchDirs w file ds with
      | none =>
        rw [hs] at ih
        intro d' hd'
        rcases List.mem_cons.mp hd' with rfl | hd'
        · exact h'
        · exact ih d' hd'
      | some p =>
        rw [hs] at ih
        obtain ⟨i, e, h1, h2, h3, h4⟩ := ih
        refine ⟨i + 1, e, h1, h2, h3, fun j d' hj hd' => ?_⟩
        cases j with
        | zero => simp at hd'; subst hd'; exact h'
        | succ j => exact h4 j d' (by omega) hd'

theorem Spec.FoundIn.unique {w : World} {dirs : List Path} {file : String} {p q : Path}
    (hp : FoundIn w dirs file p) (hq : FoundIn w dirs file q) : p = q := by
  obtain ⟨i, d, h1, h2, h3, h4⟩ := hp
  obtain ⟨j, e, g1, g2, g3, g4⟩ := hq
  have : i = j := by
    rcases Nat.lt_trichotomy i j with h | h | h
    · have := g4 i d h h1; rw [← h2, h3] at this; cases this
    · exact h
    · have := h4 j e h g1; rw [← g2, g3] at this; cases this
  subst this
  rw [h1] at g1; cases g1; rw [h2, g2]

theorem Spec.ImportsTo.unique {w : World} {dirs : List Path} {dir : Path} {file : String} {p q : Path}
    (hp : ImportsTo w dirs dir file p) (hq : ImportsTo w dirs dir file q) : p = q := by
  obtain ⟨a, h1, h2⟩ := hp
  obtain ⟨b, g1, g2⟩ := hq
  rw [h1.unique g1, g2] at h2
  injection h2 with h2; exact h2.symm

theorem resolveImport_ok {w : World} {dirs : List Path} {file : String} {dir p : Path} :
    resolveImport w dirs file dir = .ok p ↔ ImportsTo w dirs dir file p := by
  have hs := searchDirs_spec w file (dir :: dirs)
  unfold resolveImport
  cases h : searchDirs w file (dir :: dirs) with
  | none =>
    rw [h] at hs
    simp only
    constructor
    · intro h'; cases h'
    · rintro ⟨q, ⟨i, d, h1, h2, h3, _⟩, _⟩
      have := hs d (List.mem_of_getElem? h1)
      rw [← h2, h3] at this; cases this
  | some q =>
    rw [h] at hs
    simp only at hs ⊢
    cases hc : w.canonicalize q with
    | none =>
      simp only
      constructor
      · intro h'; cases h'
      · rintro ⟨q', h1, h2⟩
        rw [hs.unique h1, h2] at hc; cases hc
    | some p' =>
      simp only [Except.ok.injEq]
      constructor
      · rintro rfl; exact ⟨q, hs, hc⟩
      · rintro ⟨q', h1, h2⟩
        rw [hs.unique h1, h2] at hc
        injection hc with hc; exact hc.symm

theorem not_foundIn {w : World} {dirs : List Path} {file : String}
    (h : ∀ d ∈ dirs, w.exists_ (w.join d file) = false) (q : Path) : ¬ FoundIn w dirs file q := by
  rintro ⟨i, d, h1, h2, h3, _⟩
  have := h d (List.mem_of_getElem? h1)
  rw [← h2, h3] at this; cases this

theorem not_importsTo_of_notFound {w : World} {dirs : List Path} {dir : Path} {file : String}
    (h : ∀ d ∈ dir :: dirs, w.exists_ (w.join d file) = false) (p : Path) :
    ¬ ImportsTo w dirs dir file p := by
  rintro ⟨q, hq, _⟩
  exact not_foundIn h q hq

theorem not_importsTo_of_notCanonical {w : World} {dirs : List Path} {dir : Path} {file : String}
    {q : Path} (h : FoundIn w (dir :: dirs) file q) (hc : w.canonicalize q = none) (p : Path) :
    ¬ ImportsTo w dirs dir file p := by
  rintro ⟨q', hq, hc'⟩
  rw [hq.unique h, hc] at hc'; cases hc'

theorem resolveImport_error {w : World} {dirs : List Path} {file : String} {dir : Path}
    {e : CompileErr} (h : resolveImport w dirs file dir = .error e) :
    (e = .importNotFound file (dir :: dirs) ∧
      ∀ d ∈ dir :: dirs, w.exists_ (w.join d file) = false) ∨
    ∃ q, e = .canonicalizeFailed file ∧ FoundIn w (dir :: dirs) file q ∧
      w.canonicalize q = none := by
  have hs := searchDirs_spec w file (dir :: dirs)
  unfold resolveImport at h
  cases hd : searchDirs w file (dir :: dirs) with
  | none =>
    rw [hd] at h hs
    injection h with h
    exact .inl ⟨h.symm, hs⟩
  | some q =>
    rw [hd] at h hs
    simp only at h hs
    cases hc : w.canonicalize q with
    | none =>
      rw [hc] at h
      injection h with h
      exact .inr ⟨q, h.symm, hs, hc⟩
    | some p' => rw [hc] at h; cases h

section
variable [CharTables] [FloatTables] [CaseTables]

/-- The part of the context that events act on. -/
def Ctx.core (c : Ctx) : Core := ⟨c.registry, c.messages, c.warnings⟩

/-- What a run of `process_decl_items` has to do with the trace. -/
inductive Follows (w : World) (dirs : List Path) (fuel : Nat) (dir : Path) (items : List DeclItem)
    (c : Ctx) : Outcome Unit → Prop
  | done {es seen c'} : Trace w dirs dir c.imported items es (.finished seen) →
      runEvents w fuel es c.core = .ok c'.core → c'.imported = seen →
      c'.jsonImports.map Prod.fst = c.jsonImports.map Prod.fst ++ es.filterMap Event.jsonPath? →
      Follows w dirs fuel dir items c (.ok (), c')
  | stuck {es k e c'} : Trace w dirs dir c.imported items es (.stuck e) →
      runEvents w fuel es c.core = .ok k → c'.warnings = k.warnings →
      Follows w dirs fuel dir items c (.error e, c')
  | failed {es ev k e c'} : Trace w dirs dir c.imported items (es ++ [ev]) .cut →
      runEvents w fuel es c.core = .ok k → ev.run w fuel k = .error e → c'.warnings = k.warnings →
      Follows w dirs fuel dir items c (.error e, c')
  | timeout {c'} : Follows w dirs fuel dir items c (.error .timeout, c')

omit [FloatTables] [CaseTables] in
theorem runEvents_append (w : World) (fuel : Nat) (es es' : List Event) :
    ∀ {k k' : Core}, runEvents w fuel es k = .ok k' →
      runEvents w fuel (es ++ es') k = runEvents w fuel es' k' := by
  induction es with
  | nil => intro k k' h; simp only [runEvents] at h; injection h with h; subst h; rfl
  | cons e es ih =>
    intro k k' h
    simp only [runEvents, List.cons_append] at h ⊢
    split at h
    · cases h
    · exact ih h

omit [FloatTables] [CaseTables] in
theorem runEvents_cons {w : World} {fuel : Nat} {ev : Event} {es : List Event} {k k' : Core}
    (h : ev.run w fuel k = .ok k') :
    runEvents w fuel (ev :: es) k = runEvents w fuel es k' := by
  simp only [runEvents, h]

omit [FloatTables] [CaseTables] in
theorem runEvents_cons_ok {w : World} {fuel : Nat} {ev : Event} {es : List Event} {k k' k'' : Core}
    (h : ev.run w fuel k = .ok k') (h' : runEvents w fuel es k' = .ok k'') :
    runEvents w fuel (ev :: es) k = .ok k'' := (runEvents_cons h).trans h'

omit [FloatTables] [CaseTables] in
theorem declareType_run (w : World) (fuel : Nat) (s : Schema) (span : Option Span)
    (spans : List (String × Span)) (c : Ctx) :
    match declareType fuel s span spans c with
    | (.ok (), c') => (Event.type s span spans).run w fuel c.core = .ok c'.core ∧
        c'.imported = c.imported ∧ c'.jsonImports = c.jsonImports
    | (.error e, c') => (Event.type s span spans).run w fuel c.core = .error e ∧
        c'.warnings = c.warnings := by
  unfold declareType
  simp only [Event.run, Ctx.core]
  cases h : c.registry.register s with
  | error e => simp
  | ok r =>
    simp only
    cases hv : validateRecordFieldDefaults r.find? fuel s with
    | none => simp
    | some l =>
      cases l with
      | nil => simp
      | cons e es => simp

/-- Adding an event in front. -/
theorem Follows.prepend {w : World} {dirs : List Path} {fuel : Nat} {dir : Path}
    {items items' : List DeclItem} {c c1 : Ctx} {r : Outcome Unit} {evs : List Event}
    (hrun : runEvents w fuel evs c.core = .ok c1.core)
    (htr : ∀ {es e}, Trace w dirs dir c1.imported items es e →
      Trace w dirs dir c.imported items' (evs ++ es) e)
    (hj : c1.jsonImports.map Prod.fst = c.jsonImports.map Prod.fst ++ evs.filterMap Event.jsonPath?)
    (h : Follows w dirs fuel dir items c1 r) : Follows w dirs fuel dir items' c r := by
  cases h with
  | done h1 h2 h3 h4 =>
    refine .done (htr h1) ((runEvents_append w fuel _ _ hrun).trans h2) h3 ?_
    rw [h4, hj, List.filterMap_append, List.append_assoc]
  | stuck h1 h2 h3 =>
    exact .stuck (htr h1) ((runEvents_append w fuel _ _ hrun).trans h2) h3
  | failed h1 h2 h3 h4 =>
    refine .failed (es := evs ++ _) ?_ ((runEvents_append w fuel _ _ hrun).trans h2) h3 h4
    rw [List.append_assoc]; exact htr h1
  | timeout => exact .timeout

/-- The outcome of one import. -/
theorem processItems_follows (w : World) (dirs : List Path) (fuel : Nat)
    (nested : List DeclItem → Path → Ctx → Outcome Unit)
    (hn : ∀ items dir c, Follows w dirs fuel dir items c (nested items dir c)) :
    ∀ (items : List DeclItem) (dir : Path) (c : Ctx),
      Follows w dirs fuel dir items c (processItems w dirs fuel nested items dir c) := by
  intro items
  induction items with
  | nil => intro dir c; exact .done .nil rfl rfl (by simp)
  | cons it items ih =>
    intro dir c
    cases it with
    | type s span spans =>
      simp only [processItems]
      have h := declareType_run w fuel s span spans c
      split
      · rename_i e c' hd
        rw [hd] at h
        exact .failed (es := []) (.type .cut) rfl h.1 h.2
      · rename_i c' hd
        rw [hd] at h
        refine Follows.prepend (evs := [.type s span spans]) (runEvents_cons_ok h.1 rfl) ?_ ?_
          (ih dir c')
        · intro es e ht
          rw [h.2.1] at ht
          exact .type ht
        · simp [h.2.2, Event.jsonPath?]
    | import_ i =>
      simp only [processItems, resolveSingleImport]
      cases hr : resolveImport w dirs i.path dir with
      | error e =>
        simp only
        rcases resolveImport_error hr with ⟨he, h⟩ | ⟨q, he, h, h'⟩
        · subst he; exact .stuck (.notFound h) rfl rfl
        · subst he; exact .stuck (.notCanonical h h') rfl rfl
      | ok p =>
        have hp := resolveImport_ok.mp hr
        simp only
        by_cases hm : c.imported.contains p = true
        · rw [if_pos hm]
          simp only
          have hm' : p ∈ c.imported := by simpa using hm
          exact Follows.prepend (evs := []) rfl (fun ht => .again hp hm' ht) (by simp) (ih dir c)
        · rw [if_neg hm]
          have hm' : p ∉ c.imported := by simpa using hm
          cases hk : i.kind with
          | protocol =>
            simp only
            cases hj : readJson w p with
            | error e =>
              simp only
              exact .stuck (.badJson hp hm' (by simp [hk]) hj) rfl rfl
            | ok j =>
              simp only
              cases hi : importProtocol j c.registry with
              | error e =>
                simp only
                refine .failed (es := []) (.protocol hp hm' hk hj .cut) rfl ?_ rfl
                simp [Event.run, Ctx.core, hi]
              | ok rm =>
                obtain ⟨r, ms⟩ := rm
                simp only
                refine Follows.prepend (evs := [.protocol p j i.span]) (runEvents_cons_ok ?_ rfl)
                  (fun ht => .protocol hp hm' hk hj ht) (by simp [Event.jsonPath?]) (ih dir _)
                simp [Event.run, Ctx.core, hi]
          | schema =>
            simp only
            cases hj : readJson w p with
            | error e =>
              simp only
              exact .stuck (.badJson hp hm' (by simp [hk]) hj) rfl rfl
            | ok j =>
              simp only
              cases hi : importSchema j c.registry with
              | error e =>
                simp only
                refine .failed (es := []) (.schema hp hm' hk hj .cut) rfl ?_ rfl
                simp [Event.run, Ctx.core, hi]
              | ok r =>
                simp only
                refine Follows.prepend (evs := [.schema p j i.span]) (runEvents_cons_ok ?_ rfl)
                  (fun ht => .schema hp hm' hk hj ht) (by simp [Event.jsonPath?]) (ih dir _)
                simp [Event.run, Ctx.core, hi]
          | idl =>
            simp only
            cases hj : readIdl w p with
            | error e =>
              simp only
              exact .stuck (.badIdl hp hm' hk hj) rfl rfl
            | ok fdw =>
              obtain ⟨file, decls, ws⟩ := fdw
              simp only
              have hev : (Event.idl p i.path file ws).run w fuel c.core = .ok
                  ⟨c.registry, extendMessages c.messages file.messages,
                    c.warnings ++ importReports w p i.path ws⟩ := rfl
              have h := hn decls ((w.parent p).getD ".")
                { c with imported := p :: c.imported,
                         warnings := c.warnings ++ importReports w p i.path ws,
                         messages := extendMessages c.messages file.messages }
              generalize nested decls ((w.parent p).getD ".") _ = r at h
              cases h with
              | @done es seen c' h1 h2 h3 h4 =>
                simp only
                refine Follows.prepend (evs := .idl p i.path file ws :: es)
                  ((runEvents_cons hev).trans h2) ?_ h4 (ih dir c')
                intro es' e ht
                rw [h3] at ht
                exact .idl hp hm' hk hj h1 ht
              | stuck h1 h2 h3 =>
                simp only
                exact .stuck (.idlEnds hp hm' hk hj h1 (by simp)) ((runEvents_cons hev).trans h2) h3
              | failed h1 h2 h3 h4 =>
                simp only
                exact .failed (es := .idl p i.path file ws :: _)
                  (.idlEnds hp hm' hk hj h1 (by simp)) ((runEvents_cons hev).trans h2) h3 h4
              | timeout => exact .timeout

theorem processDecls_follows (w : World) (dirs : List Path) (fuel : Nat) : ∀ (depth : Nat)
    (items : List DeclItem) (dir : Path) (c : Ctx),
      Follows w dirs fuel dir items c (processDecls w dirs fuel depth items dir c)
  | 0, _, _, _ => .timeout
  | depth + 1, items, dir, c => by
      simp only [processDecls]
      exact processItems_follows w dirs fuel _ (processDecls_follows w dirs fuel depth) items dir c

/-! ## Each file at most once -/

/-- The files of events. -/
def eventPaths (es : List Event) : List Path := es.filterMap Event.path?

omit [CharTables] [FloatTables] [CaseTables] in
theorem eventPaths_append (es es' : List Event) :
    eventPaths (es ++ es') = eventPaths es ++ eventPaths es' := List.filterMap_append

theorem Spec.Trace.paths {w : World} {dirs : List Path} {dir : Path} {seen : List Path}
    {items : List DeclItem} {es : List Event} {e : Ending}
    (h : Trace w dirs dir seen items es e) :
    (eventPaths es).Nodup ∧ (∀ p ∈ eventPaths es, p ∉ seen) ∧
    ∀ seen', e = .finished seen' → ∀ p, p ∈ seen' ↔ p ∈ seen ∨ p ∈ eventPaths es := by
  induction h with
  | nil => simp [eventPaths]
  | cut => simp [eventPaths]
  | type _ ih => exact ih
  | notFound => simp [eventPaths]
  | notCanonical => simp [eventPaths]
  | again _ _ _ ih => exact ih
  | badJson => simp [eventPaths]
  | badIdl => simp [eventPaths]
  | schema _ hm _ _ _ ih | protocol _ hm _ _ _ ih =>
    obtain ⟨h1, h2, h3⟩ := ih
    refine ⟨List.nodup_cons.mpr ⟨fun h => h2 _ h (List.mem_cons_self ..), h1⟩, ?_, ?_⟩
    · intro q hq
      rcases List.mem_cons.mp hq with rfl | hq
      · exact hm
      · exact fun h => h2 q hq (List.mem_cons_of_mem _ h)
    · intro seen' he q
      rw [h3 seen' he q, List.mem_cons]
      change _ ↔ q ∈ _ ∨ q ∈ _ :: _
      rw [List.mem_cons]
      constructor
      · rintro ((h | h) | h)
        · exact Or.inr (Or.inl h)
        · exact Or.inl h
        · exact Or.inr (Or.inr h)
      · rintro (h | h | h)
        · exact Or.inl (Or.inr h)
        · exact Or.inl (Or.inl h)
        · exact Or.inr h
  | @idl dir seen i p file decls ws items es seen1 es' e _ hm _ _ _ _ ih ih' =>
    obtain ⟨h1, h2, h3⟩ := ih
    obtain ⟨g1, g2, g3⟩ := ih'
    have hs := h3 seen1 rfl
    change (p :: eventPaths (es ++ es')).Nodup ∧ _
    rw [eventPaths_append]
    refine ⟨?_, ?_, ?_⟩
    · rw [List.nodup_cons, List.mem_append, List.nodup_append]
      refine ⟨?_, h1, g1, ?_⟩
      · rintro (h | h)
        · exact h2 p h (List.mem_cons_self ..)
        · exact g2 p h ((hs p).mpr (Or.inl (List.mem_cons_self ..)))
      · rintro a ha b hb rfl
        exact g2 a hb ((hs a).mpr (Or.inr ha))
    · intro q hq
      have hq' : q ∈ p :: eventPaths (es ++ es') := hq
      rw [eventPaths_append, List.mem_cons, List.mem_append] at hq'
      rcases hq' with rfl | h | h
      · exact hm
      · exact fun h' => h2 q h (List.mem_cons_of_mem _ h')
      · exact fun h' => g2 q h ((hs q).mpr (Or.inl (List.mem_cons_of_mem _ h')))
    · intro seen' he q
      rw [g3 seen' he q, hs q]
      change _ ↔ q ∈ _ ∨ q ∈ p :: eventPaths (es ++ es')
      rw [eventPaths_append, List.mem_cons, List.mem_cons, List.mem_append]
      constructor
      · rintro (((h | h) | h) | h) <;> simp [h]
      · rintro (h | h | h | h) <;> simp [h]
  | @idlEnds dir seen i p file decls ws items es e _ hm _ _ _ hne ih =>
    obtain ⟨h1, h2, h3⟩ := ih
    refine ⟨List.nodup_cons.mpr ⟨fun h => h2 p h (List.mem_cons_self ..), h1⟩, ?_, ?_⟩
    · intro q hq
      rcases List.mem_cons.mp hq with rfl | hq
      · exact hm
      · exact fun h => h2 q hq (List.mem_cons_of_mem _ h)
    · intro seen' he; exact absurd he (hne seen')

end

end Avdl
