import Verif.Lemmas.Compile
import Verif.Props.Registry
import Verif.Props.Defaults
/-!
# Import processing terminates
-/

namespace Avdl
open Spec

section
variable [CharTables]

theorem Registry.Ok.attempt {r : Registry} (h : r.Ok) (s : Schema) : (Props.attempt r s).Ok := by
  rcases Props.C08_attempt r s with ⟨full, ha, hf, _, he⟩ | ⟨_, _, he⟩
  · rw [he]
    intro kt hkt
    rcases List.mem_append.mp hkt with hkt | hkt
    · exact h kt hkt
    · simp only [List.mem_cons, List.not_mem_nil, or_false] at hkt
      subst hkt
      refine ⟨?_, hf⟩
      obtain ⟨n, ns, h1, _⟩ := ha
      cases h1 <;> trivial
  · rw [he]; exact h

theorem Registry.Ok.foldl {l : List Schema} : ∀ {r : Registry}, r.Ok →
    (l.foldl Props.attempt r).Ok := by
  induction l with
  | nil => exact fun h => h
  | cons s t ih => exact fun h => ih (h.attempt s)

theorem flattenAndRegister_eq (r : Registry) (s : Schema) :
    flattenAndRegister r s = (flattenSchema s).1.foldl Props.attempt r := rfl

theorem importTypes_eq (dflt : Option String) (js : List Json) : ∀ {r r' : Registry},
    importTypes dflt js r = .ok r' → r' = (jsonTypes dflt js).foldl Props.attempt r := by
  induction js with
  | nil => intro r r' h; cases h; rfl
  | cons j js ih =>
    intro r r' h
    simp only [importTypes] at h
    cases hj : jsonToSchema dflt j with
    | error e => simp [hj] at h
    | ok s =>
      simp only [hj] at h
      cases hl : importTypes dflt js (flattenAndRegister r s) with
      | error e => simp [hl] at h
      | ok r'' =>
        simp only [hl, Except.ok.injEq] at h
        subst h
        rw [ih hl, flattenAndRegister_eq, ← List.foldl_append]
        simp [jsonTypes, hj]

theorem importSchema_eq {j : Json} {r r' : Registry} (h : importSchema j r = .ok r') :
    r' = (jsonTypes none [j]).foldl Props.attempt r := by
  simp only [importSchema] at h
  cases hj : jsonToSchema none j with
  | error e => simp [hj] at h
  | ok s =>
    simp only [hj] at h
    injection h with h
    rw [← h, flattenAndRegister_eq]
    simp [jsonTypes, hj]

omit [CharTables] in
theorem importMessages_eq (dflt : Option String) (js : List (String × Json)) :
    ∀ {ms}, importMessages dflt js = .ok ms →
      ms = js.filterMap fun nj =>
        match jsonToMessage dflt nj.2 with
        | .ok m => some (nj.1, m)
        | .error _ => none := by
  induction js with
  | nil => intro ms h; cases h; rfl
  | cons nj js ih =>
    obtain ⟨n, j⟩ := nj
    intro ms h
    simp only [importMessages] at h
    cases hj : jsonToMessage dflt j with
    | error e => simp [hj] at h
    | ok m =>
      simp only [hj] at h
      cases hm : importMessages dflt js with
      | error e => simp [hm] at h
      | ok ms' =>
        simp only [hm] at h
        injection h with h
        rw [← h, ih hm]
        simp [hj]

theorem importProtocol_eq {j : Json} {r r' : Registry} {ms : List (String × Message)}
    (h : importProtocol j r = .ok (r', ms)) :
    r' = (protocolJsonTypes j).foldl Props.attempt r ∧ ms = protocolJsonMessages j := by
  simp only [importProtocol] at h
  split at h
  · cases h
  · rename_i r1 h1
    split at h
    · cases h
    · rename_i ms1 h2
      injection h with h
      injection h with ha hb
      subst ha hb
      constructor
      · unfold protocolJsonTypes
        cases ht : (j.get? "types").bind Json.asArr with
        | none => rw [ht] at h1; injection h1 with h1; rw [← h1]; rfl
        | some ts => rw [ht] at h1; exact importTypes_eq _ ts h1
      · unfold protocolJsonMessages
        cases hm : j.get? "messages" with
        | none => rw [hm] at h2; injection h2 with h2; rw [← h2]
        | some x =>
          rw [hm] at h2
          cases x with
          | obj o => exact importMessages_eq _ o h2
          | _ => injection h2 with h2; rw [← h2]

end

/-! ## Termination -/

/-- How many of the files have not been met. -/
def unseen (files seen : List Path) : Nat := (files.filter fun p => !seen.contains p).length

theorem unseen_cons_le (files seen : List Path) (p : Path) :
    unseen files (p :: seen) ≤ unseen files seen := by
  unfold unseen
  rw [← List.countP_eq_length_filter, ← List.countP_eq_length_filter]
  apply List.countP_mono_left
  intro x _ hx
  simp only [List.contains_cons, Bool.not_or, Bool.and_eq_true] at hx
  exact hx.2

theorem unseen_cons_lt {files seen : List Path} {p : Path} (hp : p ∈ files) (hs : p ∉ seen) :
    unseen files (p :: seen) < unseen files seen := by
  unfold unseen
  rw [← List.countP_eq_length_filter, ← List.countP_eq_length_filter]
  induction files with
  | nil => cases hp
  | cons a as ih =>
    simp only [List.countP_cons]
    by_cases ha : a = p
    · subst ha
      have h1 : (!(a :: seen).contains a) = false := by simp
      have h2 : (!seen.contains a) = true := by simpa using hs
      rw [h1, h2]
      have := unseen_cons_le as seen a
      unfold unseen at this
      rw [← List.countP_eq_length_filter, ← List.countP_eq_length_filter] at this
      simp only [Bool.false_eq_true, if_false, if_true]
      omega
    · have hp' : p ∈ as := by
        rcases List.mem_cons.mp hp with h | h
        · exact absurd h.symm ha
        · exact h
      have h1 : (!(p :: seen).contains a) = (!seen.contains a) := by
        simp [ha]
      rw [h1]
      have := ih hp'
      omega

section
variable [CharTables] [FloatTables] [CaseTables]

omit [FloatTables] [CaseTables] in
theorem declareType_settles (s : Schema) (span : Option Span) (spans : List (String × Span)) (c : Ctx)
    (hc : c.registry.Ok) :
    ∃ N r, (∀ fuel, N ≤ fuel → declareType fuel s span spans c = r) ∧ r.1 ≠ .error .timeout ∧
      (r.1 = .ok () → r.2.registry.Ok ∧ r.2.imported = c.imported) := by
  unfold declareType
  cases h : c.registry.register s with
  | error e => exact ⟨0, _, fun _ _ => rfl, by simp, by simp⟩
  | ok r =>
    have hr : r.Ok := by
      have := hc.attempt s
      simpa only [Props.attempt, h] using this
    obtain ⟨N, errs, hN⟩ := Props.C13_check_terminates r hr s
    cases errs with
    | nil =>
      refine ⟨N, (.ok (), { c with registry := r }), fun fuel hf => by simp only [hN fuel hf],
        by simp, fun _ => ⟨hr, rfl⟩⟩
    | cons e es =>
      refine ⟨N, (.error (defaultsErr s span spans e es), { c with registry := r }),
        fun fuel hf => by simp only [hN fuel hf], by simp [defaultsErr], by simp⟩

theorem parseIdl_no_timeout (w : World) (t n : String) : parseIdl w t n ≠ .error .timeout := by
  unfold parseIdl
  split
  · simp
  · split <;> simp

theorem readIdl_no_timeout (w : World) (p : Path) : readIdl w p ≠ .error .timeout := by
  unfold readIdl
  split
  · simp
  · exact parseIdl_no_timeout _ _ _

/-- The outcome for enough fuel. -/
def Settles (w : World) (dirs files : List Path) (K : Nat) (items : List DeclItem) (dir : Path)
    (c : Ctx) : Prop :=
  ∃ N r, (∀ fuel depth, N ≤ fuel → K ≤ depth → processDecls w dirs fuel depth items dir c = r) ∧
    r.1 ≠ .error .timeout ∧
    (r.1 = .ok () → r.2.registry.Ok ∧ unseen files r.2.imported ≤ unseen files c.imported)

/-- One import settles. -/
theorem import_settles {w : World} {dirs files : List Path}
    (hfin : ∀ p q, w.canonicalize p = some q → q ∈ files) {K : Nat}
    (ih : ∀ items dir c, c.registry.Ok → unseen files c.imported < K →
      Settles w dirs files K items dir c)
    (i : ImportEntry) (dir : Path) (c : Ctx) (hc : c.registry.Ok)
    (hu : unseen files c.imported < K + 1) :
    ∃ N r, (∀ fuel depth, N ≤ fuel → K ≤ depth →
        resolveSingleImport w dirs (processDecls w dirs fuel depth) i dir c = r) ∧
      r.1 ≠ .error .timeout ∧
      (r.1 = .ok () → r.2.registry.Ok ∧ unseen files r.2.imported ≤ unseen files c.imported) := by
  unfold resolveSingleImport
  cases hr : resolveImport w dirs i.path dir with
  | error e =>
    exact ⟨0, (.error (.importFailed i.span e), c), fun _ _ _ _ => rfl, by simp, by simp⟩
  | ok p =>
    obtain ⟨q, _, hq⟩ := resolveImport_ok.mp hr
    have hpf : p ∈ files := hfin _ _ hq
    simp only
    by_cases hm : c.imported.contains p = true
    · simp only [if_pos hm]
      exact ⟨0, _, fun _ _ _ _ => rfl, by simp, fun _ => ⟨hc, Nat.le_refl _⟩⟩
    · simp only [if_neg hm]
      have hm' : p ∉ c.imported := by simpa using hm
      have hlt := unseen_cons_lt hpf hm'
      cases hk : i.kind with
      | protocol =>
        simp only
        cases hj : readJson w p with
        | error e =>
          exact ⟨0, (.error (.importFailed i.span e), _), fun _ _ _ _ => rfl, by simp, by simp⟩
        | ok j =>
          simp only
          cases hi : importProtocol j c.registry with
          | error e => exact ⟨0, (.error _, _), fun _ _ _ _ => rfl, by simp, by simp⟩
          | ok rm =>
            obtain ⟨r, ms⟩ := rm
            refine ⟨0, (.ok (), _), fun _ _ _ _ => rfl, by simp, fun _ => ⟨?_, Nat.le_of_lt hlt⟩⟩
            simp only [(importProtocol_eq hi).1]
            exact hc.foldl
      | schema =>
        simp only
        cases hj : readJson w p with
        | error e =>
          exact ⟨0, (.error (.importFailed i.span e), _), fun _ _ _ _ => rfl, by simp, by simp⟩
        | ok j =>
          simp only
          cases hi : importSchema j c.registry with
          | error e => exact ⟨0, (.error _, _), fun _ _ _ _ => rfl, by simp, by simp⟩
          | ok r =>
            refine ⟨0, (.ok (), _), fun _ _ _ _ => rfl, by simp, fun _ => ⟨?_, Nat.le_of_lt hlt⟩⟩
            simp only [importSchema_eq hi]
            exact hc.foldl
      | idl =>
        simp only
        cases hj : readIdl w p with
        | error e =>
          refine ⟨0, (.error e, _), fun _ _ _ _ => rfl, ?_, by simp⟩
          have := readIdl_no_timeout w p
          rw [hj] at this; simpa using this
        | ok fdw =>
          obtain ⟨file, decls, ws⟩ := fdw
          simp only
          obtain ⟨N, r, h1, h2, h3⟩ := ih decls ((w.parent p).getD ".")
            { c with imported := p :: c.imported,
                     warnings := c.warnings ++ importReports w p i.path ws,
                     messages := extendMessages c.messages file.messages } hc
            (by simp only; omega)
          refine ⟨N, r, h1, h2, fun h => ⟨(h3 h).1, ?_⟩⟩
          have := (h3 h).2
          simp only at this
          omega

theorem processDecls_settles {w : World} {dirs files : List Path}
    (hfin : ∀ p q, w.canonicalize p = some q → q ∈ files) : ∀ (K : Nat) (items : List DeclItem)
    (dir : Path) (c : Ctx), c.registry.Ok → unseen files c.imported < K →
      Settles w dirs files K items dir c := by
  intro K
  induction K with
  | zero => intro _ _ _ _ h; omega
  | succ K ih =>
    intro items
    induction items with
    | nil =>
      intro dir c hc _
      refine ⟨0, (.ok (), c), fun fuel depth _ hd => ?_, by simp, fun _ => ⟨hc, Nat.le_refl _⟩⟩
      obtain ⟨d, rfl⟩ : ∃ d, depth = d + 1 := ⟨depth - 1, by omega⟩
      rfl
    | cons it items ihi =>
      intro dir c hc hu
      have step : ∀ (f : Nat → Nat → Outcome Unit),
          (∀ fuel d, processDecls w dirs fuel (d + 1) (it :: items) dir c =
            match f fuel d with
            | (.error e, c') => (.error e, c')
            | (.ok (), c') => processDecls w dirs fuel (d + 1) items dir c') →
          (∃ N r, (∀ fuel d, N ≤ fuel → K ≤ d → f fuel d = r) ∧ r.1 ≠ .error .timeout ∧
            (r.1 = .ok () → r.2.registry.Ok ∧
              unseen files r.2.imported ≤ unseen files c.imported)) →
          Settles w dirs files (K + 1) (it :: items) dir c := by
        rintro f hf ⟨N, ⟨r, c'⟩, h1, h2, h3⟩
        cases r with
        | error e =>
          refine ⟨N, (.error e, c'), fun fuel depth hfuel hd => ?_, h2, by simp⟩
          obtain ⟨d, rfl⟩ : ∃ d, depth = d + 1 := ⟨depth - 1, by omega⟩
          rw [hf, h1 fuel d hfuel (by omega)]
        | ok u =>
          obtain ⟨h4, h5⟩ := h3 rfl
          simp only at h4 h5
          obtain ⟨N', r', g1, g2, g3⟩ := ihi dir c' h4 (by omega)
          refine ⟨max N N', r', fun fuel depth hfuel hd => ?_, g2, fun h => ⟨(g3 h).1, ?_⟩⟩
          · have := g1 fuel depth (by omega) hd
            obtain ⟨d, rfl⟩ : ∃ d, depth = d + 1 := ⟨depth - 1, by omega⟩
            rw [hf, h1 fuel d (by omega) (by omega)]
            exact this
          · have := (g3 h).2; omega
      cases it with
      | type s span spans =>
        refine step (fun fuel _ => declareType fuel s span spans c) (fun fuel d => rfl) ?_
        obtain ⟨N, r, h1, h2, h3⟩ := declareType_settles s span spans c hc
        refine ⟨N, r, fun fuel _ hf _ => h1 fuel hf, h2, fun h => ⟨(h3 h).1, ?_⟩⟩
        rw [(h3 h).2]; exact Nat.le_refl _
      | import_ i =>
        exact step (fun fuel d => resolveSingleImport w dirs (processDecls w dirs fuel d) i dir c)
          (fun fuel d => rfl) (import_settles hfin ih i dir c hc hu)

/-- `parse_and_resolve` settles when the file system has finitely many files. -/
theorem parseAndResolve_settles {w : World} {dirs files : List Path}
    (hfin : ∀ p q, w.canonicalize p = some q → q ∈ files) (text name : String) (dir : Path)
    (path : Option Path) (c : Ctx) (hc : c.registry.Ok) :
    ∃ N r, (∀ fuel, N ≤ fuel → parseAndResolve w dirs fuel text name dir path c = r) ∧
      r.1 ≠ .error .timeout := by
  unfold parseAndResolve
  cases hp : parseIdl w text name with
  | error e =>
    refine ⟨0, (.error e, c), fun _ _ => rfl, ?_⟩
    have := parseIdl_no_timeout w text name
    rw [hp] at this; simpa using this
  | ok fdw =>
    obtain ⟨file, decls, ws⟩ := fdw
    simp only
    obtain ⟨N, ⟨r, c'⟩, h1, h2, h3⟩ := processDecls_settles (dirs := dirs) hfin
      (files.length + 1) decls dir
      { c with warnings := c.warnings ++ ws.map fun x => ⟨x, none⟩,
               imported := path.toList ++ c.imported } hc
      (Nat.lt_succ_of_le (List.length_filter_le ..))
    cases r with
    | error e =>
      refine ⟨max N (files.length + 1), (.error e, c'), fun fuel hf => ?_, by simpa using h2⟩
      rw [h1 fuel fuel (by omega) (by omega)]
    | ok u =>
      refine ⟨max N (files.length + 1), (.ok (finishFile file c'), c'), fun fuel hf => ?_, by simp⟩
      rw [h1 fuel fuel (by omega) (by omega)]

end

end Avdl
