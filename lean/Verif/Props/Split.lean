import Verif.Lemmas.Split
import Verif.Props.CompileOk
import Verif.Props.Order
import Verif.Props.Local
/-!
# C66: moving declarations into a file of their own
-/

namespace Avdl.Props
open Spec BareOutput BareReader BareCompile

section
variable [CharTables] [FloatTables] [CaseTables]

/-! ## Lemmas -/

/-- The import in the place of the declarations. -/
theorem trace_moveOut {w : World} {dirs : List Path} {dir p : Path} {S S' : List Path}
    {before moved after : List DeclItem} {es : List Event} {i : ImportEntry} {part : IdlFile}
    {ws : List Warning} (h : Trace w dirs dir S (before ++ moved ++ after) es (.finished S'))
    (hN : NeverImports w dirs p dir (before ++ moved ++ after)) (hS : p ∉ S) (hk : i.kind = .idl)
    (hto : ImportsTo w dirs dir i.path p) (hr : readIdl w p = .ok (part, moved, ws))
    (hdir : (w.parent p).getD "." = dir) :
    ∃ e1 e2 e3 e2' e3' T, es = e1 ++ (e2 ++ e3) ∧
      Trace w dirs dir S (before ++ .import_ i :: after)
        (e1 ++ .idl p i.path part ws :: (e2' ++ e3')) (.finished T) ∧
      List.Forall₂ SameEvent e2' e2 ∧ List.Forall₂ SameEvent e3' e3 := by
  rw [List.append_assoc] at h
  obtain ⟨e1, e23, S1, rfl, h1, h23⟩ := h.split
  obtain ⟨e2, e3, S2, rfl, h2, h3⟩ := h23.split
  have sub : ∀ {l : List DeclItem}, l ⊆ before ++ moved ++ after → NeverImports w dirs p dir l :=
    fun hl => hN.sub hl
  obtain ⟨_, _, _, _, _, hp1, _⟩ := h1.transfer (p := p) (sameDecls_refl before) (T := S)
    (fun _ _ => Iff.rfl) (sub (by simp))
  obtain ⟨e2', T2, a1, a2, a3, _⟩ := h2.transfer (p := p) (sameDecls_refl moved) (T := p :: S1)
    (fun x hx => by simp [hx]) (sub (by intro x hx; simp [hx]))
  obtain ⟨e3', T3, b1, b2, _⟩ := h3.transfer (p := p) (sameDecls_refl after) a3
    (sub (by intro x hx; simp [hx]))
  refine ⟨e1, e2, e3, e2', e3', T3, rfl, h1.join (.idl hto (fun h => hS (hp1 h)) hk hr ?_ b1),
    ?_, ?_⟩
  · rw [hdir]; exact a1
  · exact sameEvents_symm a2
  · exact sameEvents_symm b2

/-- The declarations in the place of the import. -/
theorem trace_moveIn {w : World} {dirs : List Path} {dir p : Path} {S S' : List Path}
    {before moved after : List DeclItem} {es : List Event} {i : ImportEntry} {part : IdlFile}
    {ws : List Warning} (h : Trace w dirs dir S (before ++ .import_ i :: after) es (.finished S'))
    (hN : NeverImports w dirs p dir (before ++ moved ++ after)) (hS : p ∉ S) (hk : i.kind = .idl)
    (hto : ImportsTo w dirs dir i.path p) (hr : readIdl w p = .ok (part, moved, ws))
    (hdir : (w.parent p).getD "." = dir) :
    ∃ e1 e2 e3 e2' e3' T, es = e1 ++ .idl p i.path part ws :: (e2 ++ e3) ∧
      Trace w dirs dir S (before ++ moved ++ after) (e1 ++ (e2' ++ e3')) (.finished T) ∧
      List.Forall₂ SameEvent e2 e2' ∧ List.Forall₂ SameEvent e3 e3' := by
  obtain ⟨e1, e23, S1, rfl, h1, h23⟩ := h.split
  have sub : ∀ {l : List DeclItem}, l ⊆ before ++ moved ++ after → NeverImports w dirs p dir l :=
    fun hl => hN.sub hl
  obtain ⟨_, _, _, _, _, hp1, _⟩ := h1.transfer (p := p) (sameDecls_refl before) (T := S)
    (fun _ _ => Iff.rfl) (sub (by simp))
  have hp : p ∉ S1 := fun h => hS (hp1 h)
  cases h23 with
  | again hto' hmem _ =>
    rw [hto'.unique hto] at hmem
    exact absurd hmem hp
  | idlEnds _ _ _ _ _ hne => exact absurd rfl (hne _)
  | schema _ _ hk' => rw [hk] at hk'; cases hk'
  | protocol _ _ hk' => rw [hk] at hk'; cases hk'
  | @idl _ _ _ p' file decls ws' items e2 S2 e3 _ hto' hnot _ hr' h2 h3 =>
    have := hto'.unique hto
    subst this
    rw [hr] at hr'
    simp only [Except.ok.injEq, Prod.mk.injEq] at hr'
    obtain ⟨rfl, rfl, rfl⟩ := hr'
    rw [hdir] at h2
    obtain ⟨e2', T2, a1, a2, a3, _⟩ := h2.transfer (p := p') (sameDecls_refl moved) (T := S1)
      (fun x hx => by simp [hx]) (sub (by intro x hx; simp [hx]))
    obtain ⟨e3', T3, b1, b2, _⟩ := h3.transfer (p := p') (sameDecls_refl after) a3
      (sub (by intro x hx; simp [hx]))
    refine ⟨e1, e2, e3, e2', e3', T3, rfl, ?_, a2, b2⟩
    rw [List.append_assoc]
    exact h1.join (a1.join b1)

/-- How the events of the two compilations are related. -/
structure SplitEvents (part : IdlFile) (es es' : List Event) : Prop where
  same : SameButImports es es'
  messages : ∃ m1 m2, es.flatMap Event.messages = m1 ++ part.messages ++ m2 ∧
    es'.flatMap Event.messages = m1 ++ m2

variable {w : World} {dirs : List Path} {main mainName whole wholeName : String} {dir : Path}
  {path : Option Path} {p : Path} {file file' part : IdlFile}
  {before moved after decls' : List DeclItem} {i : ImportEntry}

omit [CharTables] [FloatTables] [CaseTables] in
theorem splitEvents_of {part : IdlFile} {p : Path} {a : String} {ws : List Warning}
    {e1 e2 e3 e1' e2' e3' : List Event} (h1 : List.Forall₂ SameEvent e1 e1')
    (h2 : List.Forall₂ SameEvent e2 e2') (h3 : List.Forall₂ SameEvent e3 e3') :
    SplitEvents part (e1 ++ .idl p a part ws :: (e2 ++ e3)) (e1' ++ (e2' ++ e3')) where
  same := (SameButImports.of_same h1).append
    (.skip ((SameButImports.of_same h2).append (.of_same h3)))
  messages := ⟨e1.flatMap Event.messages, (e2 ++ e3).flatMap Event.messages,
    by simp [Event.messages], by
      simp only [List.flatMap_append, ← sameEvents_messages h1, ← sameEvents_messages h2,
        ← sameEvents_messages h3]⟩

omit [CharTables] [FloatTables] [CaseTables] in
theorem SplitEvents.trans {part : IdlFile} {es es' es'' : List Event} (h : SplitEvents part es es')
    (h' : List.Forall₂ SameEvent es' es'') : SplitEvents part es es'' where
  same := h.same.trans h'
  messages := by rw [← sameEvents_messages h']; exact h.messages

omit [CharTables] [FloatTables] [CaseTables] in
theorem not_mem_path {path : Option Path} {p : Path} (h : path ≠ some p) : p ∉ path.toList := by
  cases path with
  | none => simp
  | some q => intro hp; simp at hp; exact h (by rw [hp])

/-- Both traces, from that of the whole. -/
theorem movedOut_out (h : MovedOut w dirs main mainName whole wholeName dir path p file file'
    part before moved after decls' i) {es' : List Event} {S' : List Path}
    (ht : Trace w dirs dir path.toList decls' es' (.finished S')) :
    ∃ es T, Trace w dirs dir path.toList (before ++ .import_ i :: after) es (.finished T) ∧
      SplitEvents part es es' := by
  obtain ⟨es'', T, t1, t2, _⟩ := ht.transfer (p := p) h.decls (T := path.toList)
    (fun _ _ => Iff.rfl) h.onlyOnce
  obtain ⟨ws, hr⟩ := h.readPart
  obtain ⟨e1, e2, e3, e2', e3', T', rfl, a1, a2, a3⟩ := trace_moveOut t1
    (h.onlyOnce.mono fun i hi => h.decls.symm.mem_import hi)
    (not_mem_path h.notItself) h.isIdl h.leads hr h.sameDir
  exact ⟨_, T', a1, (splitEvents_of (sameEvents_refl e1) a2 a3).trans (sameEvents_symm t2)⟩

/-- Both traces, from that of the parts. -/
theorem movedOut_in (h : MovedOut w dirs main mainName whole wholeName dir path p file file'
    part before moved after decls' i) {es : List Event} {S : List Path}
    (ht : Trace w dirs dir path.toList (before ++ .import_ i :: after) es (.finished S)) :
    ∃ es' T, Trace w dirs dir path.toList decls' es' (.finished T) ∧ SplitEvents part es es' := by
  obtain ⟨ws, hr⟩ := h.readPart
  have hN : NeverImports w dirs p dir (before ++ moved ++ after) :=
    h.onlyOnce.mono fun i hi => h.decls.symm.mem_import hi
  obtain ⟨e1, e2, e3, e2', e3', T', rfl, a1, a2, a3⟩ := trace_moveIn ht hN
    (not_mem_path h.notItself) h.isIdl h.leads hr h.sameDir
  obtain ⟨es', T, t1, t2, _⟩ := a1.transfer (p := p) h.decls.symm (T := path.toList)
    (fun _ _ => Iff.rfl) hN
  exact ⟨es', T, t1, (splitEvents_of (sameEvents_refl e1) a2 a3).trans t2⟩

omit [CharTables] [FloatTables] [CaseTables] in
theorem lastEntry_none {l : List (String × Message)} {n : String} (h : n ∉ l.map Prod.fst) :
    lastEntry l n = none := by
  unfold lastEntry
  rw [List.find?_eq_none.mpr]
  · rfl
  · intro x hx he
    simp only [beq_iff_eq] at he
    exact h (List.mem_map.mpr ⟨x, List.mem_reverse.mp hx, he⟩)

/-- In the end the messages are the same. -/
theorem movedOut_messages (h : MovedOut w dirs main mainName whole wholeName dir path p file file'
    part before moved after decls' i) {es es' : List Event} {S' : List Path}
    (ht : Trace w dirs dir path.toList decls' es' (.finished S')) (he : SplitEvents part es es')
    (n : String) :
    AgreeOnMessage (es.flatMap Event.messages ++ file.messages)
      (es'.flatMap Event.messages ++ file'.messages) n := by
  obtain ⟨m1, m2, e1, e2⟩ := he.messages
  have hm := h.messages n
  unfold AgreeOnMessage at hm ⊢
  rw [e1, e2]
  simp only [lastEntry_append] at hm ⊢
  by_cases hn : n ∈ part.messages.map Prod.fst
  · have hcl : ∀ nm ∈ m1 ++ m2, nm.1 ∉ part.messages.map Prod.fst := by
      intro nm hnm
      rw [← e2] at hnm
      obtain ⟨ev, hev, hx⟩ := List.mem_flatMap.mp hnm
      exact h.noClash _ _ ht ev hev nm hx
    have hnot : ∀ m, (∀ x ∈ m, x ∈ m1 ++ m2) → lastEntry m n = none := fun m hsub =>
      lastEntry_none fun hc => by
        obtain ⟨x, hx, rfl⟩ := List.mem_map.mp hc
        exact hcl x (hsub x hx) hn
    rw [hnot m1 fun x hx => List.mem_append_left _ hx, hnot m2 fun x hx => List.mem_append_right _ hx]
    simp only [Option.none_or, Option.or_none]
    rw [hm]
  · rw [lastEntry_none hn] at hm ⊢
    simp only [Option.or_none, Option.none_or] at hm ⊢
    cases h1 : lastEntry file.messages n <;> cases h2 : lastEntry file'.messages n <;>
      simp_all

omit [CharTables] [FloatTables] [CaseTables] in
theorem sameHeader_symm {f f' : IdlFile} (h : SameHeader f f') : SameHeader f' f := by
  cases h with
  | protocol h1 h2 h3 h4 => exact .protocol h1.symm h2.symm h3.symm h4.symm
  | schema h => exact .schema h.symm

omit [FloatTables] [CaseTables] in
theorem outputRefersTo_same {file file' : IdlFile} {es es' : List Event}
    (hr : bareTable (firstAccepted [] (es.flatMap Event.types)) =
      bareTable (firstAccepted [] (es'.flatMap Event.types)))
    (hh : SameHeader file file')
    (hm : ∀ n, AgreeOnMessage (es.flatMap Event.messages ++ file.messages)
      (es'.flatMap Event.messages ++ file'.messages) n) {x : String}
    (h : OutputRefersTo file es x) : OutputRefersTo file' es' x := by
  cases h with
  | type hk hx =>
    obtain ⟨kt', h1, _, h2⟩ := mem_of_bareTable hr hk
    obtain ⟨_, hx⟩ := refersTo_same h2 hx
    exact .type h1 hx
  | schema hf hx =>
    subst hf
    cases hh with
    | schema hs =>
      obtain ⟨_, hx⟩ := refersTo_same hs hx
      exact .schema rfl hx
  | named hf => subst hf; cases hh
  | @message q n m hf hl hx =>
    subst hf
    cases hh with
    | @protocol _ q' _ _ _ _ =>
      have := hm n
      unfold AgreeOnMessage at this
      simp only [IdlFile.messages] at this
      rw [hl] at this
      cases h' : lastEntry (es'.flatMap Event.messages ++ q'.messages) n with
      | none => rw [h'] at this; cases this
      | some m' =>
        rw [h'] at this
        injection this with this
        exact .message rfl h' (messageMentions_same this hx)

omit [FloatTables] [CaseTables] in
theorem firstAccepted_of_run {w : World} {fuel : Nat} {es : List Event} {k : Core}
    (h : runEvents w fuel es ⟨[], [], []⟩ = .ok k) :
    k.registry = firstAccepted [] (es.flatMap Event.types) := by
  rw [(runEvents_effect h).1, ← C08_registry_is_first_accepted]
  rfl

/-! ## C66 -/

/-- **C66, success.**  Moving declarations and messages of a file into another file of the directory,
with an import in their place, does not affect whether the file compiles. -/
theorem C66_compiles {b : Builder} (h : MovedOut w b.importDirs main mainName whole wholeName dir
      path p file file' part before moved after decls' i) {fuel fuel' : Nat}
    (hne : (b.compile w fuel main mainName dir path).1 ≠ .error .timeout)
    (hne' : (b.compile w fuel' whole wholeName dir path).1 ≠ .error .timeout) :
    (∃ out, (b.compile w fuel main mainName dir path).1 = .ok out) ↔
      ∃ out, (b.compile w fuel' whole wholeName dir path).1 = .ok out := by
  obtain ⟨ws, hp⟩ := h.readMain
  obtain ⟨ws', hp'⟩ := h.readWhole
  constructor
  · intro hok
    obtain ⟨out, ho⟩ := hok
    obtain ⟨_, _, _, es, S, k, g1, g2, g3, _⟩ := compile_ok (Prod.ext ho rfl)
    obtain ⟨_, _, _, es2, S2, f1, f2, _, f4⟩ := (C55_compiles_iff b hne).mp ⟨out, ho⟩
    rw [hp] at g1 f1
    simp only [Except.ok.injEq, Prod.mk.injEq] at g1 f1
    obtain ⟨rfl, rfl, rfl⟩ := g1
    obtain ⟨rfl, rfl, rfl⟩ := f1
    obtain rfl := C21_trace_determined f2 g2
    obtain ⟨es', T, t1, t2⟩ := movedOut_in h g2
    obtain ⟨k', r1, r2⟩ := runEvents_same t2.same (k' := ⟨[], [], []⟩) rfl g3
    rw [firstAccepted_of_run g3, firstAccepted_of_run r1] at r2
    refine (C55_compiles_iff b hne').mpr ⟨file', decls', ws', es', T, hp', t1,
      (runEvents_start (trace_flat hp' t1) (by rw [r1]; simp)).mp ⟨k', r1⟩, fun x hx => ?_⟩
    rw [← names_of_bareTable r2]
    exact f4 x (outputRefersTo_same r2.symm (sameHeader_symm h.header)
      (fun n => (movedOut_messages h t1 t2 n).symm) hx)
  · intro hok
    obtain ⟨out, ho⟩ := hok
    obtain ⟨_, _, _, es', S', k', g1, g2, g3, _⟩ := compile_ok (Prod.ext ho rfl)
    obtain ⟨_, _, _, es2, S2, f1, f2, _, f4⟩ := (C55_compiles_iff b hne').mp ⟨out, ho⟩
    rw [hp'] at g1 f1
    simp only [Except.ok.injEq, Prod.mk.injEq] at g1 f1
    obtain ⟨rfl, rfl, rfl⟩ := g1
    obtain ⟨rfl, rfl, rfl⟩ := f1
    obtain rfl := C21_trace_determined f2 g2
    obtain ⟨es, T, t1, t2⟩ := movedOut_out h g2
    obtain ⟨k, r1, r2⟩ := runEvents_same_back t2.same (k := ⟨[], [], []⟩) rfl g3
    rw [firstAccepted_of_run g3, firstAccepted_of_run r1] at r2
    refine (C55_compiles_iff b hne).mpr ⟨file, _, ws, es, T, hp, t1,
      (runEvents_start (trace_flat hp t1) (by rw [r1]; simp)).mp ⟨k, r1⟩, fun x hx => ?_⟩
    rw [names_of_bareTable r2]
    exact f4 x (outputRefersTo_same r2 h.header (fun n => movedOut_messages h g2 t2 n) hx)

omit [CharTables] [FloatTables] [CaseTables] in
/-- The order of messages without definitions does not matter. -/
theorem protocolToJson_perm {q : Protocol} {ms : List (String × Message)}
    (hflat : ∀ t ∈ q.types, t.flatDef = true) (hmsg : ∀ m ∈ q.messages, m.2.noDefs)
    (hperm : q.messages.Perm ms) (hnd : (q.messages.map Prod.fst).Nodup) (n : Nat) :
    protocolToJson n q = protocolToJson n { q with messages := ms } := by
  have hlk : LookupNamed (buildLookup q.types q.ns) := buildLookup_named q.types q.ns
  unfold protocolToJson
  dsimp only
  cases htys : mapAccum (fun s k => schemaToJson (buildLookup q.types q.ns) n s q.ns k) q.types []
    with
  | none => rfl
  | some r =>
    obtain ⟨types, K⟩ := r
    dsimp only
    have hall : AllKnown (buildLookup q.types q.ns) K := by
      intro k t hk
      have hm := Lookup.mem_of_get? hk
      rw [buildLookup_flat q.ns q.types hflat] at hm
      obtain ⟨t', ht', he⟩ := List.mem_map.1 (List.mem_reverse.1 hm)
      injection he with _ he
      subst he
      have hn := Schema.isNamed_of_flatDef (hflat t' ht')
      have : ∃ full, t'.fullName? = some full := by
        cases t' <;> first | exact ⟨_, rfl⟩ | cases hn
      obtain ⟨full, hf⟩ := this
      exact ⟨full, hn, hf, mapAccum_types_known hlk htys t' ht' hn full hf⟩
    rcases mapAccum_perm (f := fun (nm : String × Message) k =>
        (messageToJson (buildLookup q.types q.ns) n q.ns nm.2 k).map fun jk => ((nm.1, jk.1), jk.2))
        (K := K) hperm (by
          intro a ha b K' hb
          cases hm : messageToJson (buildLookup q.types q.ns) n q.ns a.2 K with
          | none => simp [hm] at hb
          | some r =>
            obtain ⟨j, K1⟩ := r
            simp only [hm, Option.map_some, Option.some.injEq, Prod.mk.injEq] at hb
            rw [← hb.2]
            exact message_stable hall (hmsg a ha) hm) with ⟨h1, h2⟩ | ⟨bs, bs', h1, h2, h3⟩
    · rw [h1, h2]
    · rw [h1, h2]
      have hnames := mapAccum_names h1
      have hs : SameMap bs bs' := ⟨h3, by rw [hnames]; exact hnd⟩
      dsimp only
      unfold protocolObj
      dsimp only
      rw [hs.insertAll sorted_nil]

omit [CharTables] [FloatTables] [CaseTables] in
theorem nodup_of_names {l : List (String × Message)} (h : (l.map Prod.fst).Nodup) : l.Nodup :=
  List.Nodup.of_map _ h

omit [CharTables] [FloatTables] [CaseTables] in
theorem bareMessages_perm {l l' : List (String × Message)}
    (hl : ∀ n, AgreeOnMessage l l' n) :
    ((extendMessages [] l).map bareMessage).Perm ((extendMessages [] l').map bareMessage) := by
  obtain ⟨a1, a2⟩ := extendMessages_spec l [] (by simp)
  obtain ⟨b1, b2⟩ := extendMessages_spec l' [] (by simp)
  have names : ∀ m : List (String × Message), (m.map bareMessage).map Prod.fst = m.map Prod.fst := by
    intro m
    simp [bareMessage, Function.comp_def]
  have key : ∀ {l l' : List (String × Message)}, (∀ n, AgreeOnMessage l l' n) →
      (∀ n m, (n, m) ∈ extendMessages [] l ↔ lastEntry l n = some m ∨
        (lastEntry l n = none ∧ (n, m) ∈ [])) →
      (∀ n m, (n, m) ∈ extendMessages [] l' ↔ lastEntry l' n = some m ∨
        (lastEntry l' n = none ∧ (n, m) ∈ [])) →
      ∀ x ∈ (extendMessages [] l).map bareMessage, x ∈ (extendMessages [] l').map bareMessage := by
    intro l l' hl h2 h2' x hx
    obtain ⟨⟨n, m⟩, hm, rfl⟩ := List.mem_map.mp hx
    have hm := ((h2 n m).mp hm).resolve_right (by simp)
    have := hl n
    unfold AgreeOnMessage at this
    rw [hm] at this
    cases h' : lastEntry l' n with
    | none => rw [h'] at this; cases this
    | some m' =>
      rw [h'] at this
      injection this with this
      exact List.mem_map.mpr ⟨(n, m'), (h2' n m').mpr (.inl h'), by simp [bareMessage, this]⟩
  refine (List.perm_ext_iff_of_nodup (nodup_of_names (by rw [names]; exact a1))
    (nodup_of_names (by rw [names]; exact b1))).mpr fun x => ⟨?_, ?_⟩
  · exact key hl a2 b2 x
  · exact key (fun n => (hl n).symm) b2 a2 x

/-- **C66 (partial), results.**  The two compilations give the same types in the same order, the same
extracted schemas and the same document.

The condition on messages is for definitions in messages, which only imported JSON protocols can have:
there the order of messages matters (`C26_fails_inline_definitions`). -/
theorem C66_results_partial {b b1 b2 : Builder} (h : MovedOut w b.importDirs main mainName whole
      wholeName dir path p file file' part before moved after decls' i) {fuel fuel' : Nat}
    {out out' : CompileOutput} (hc : b.compile w fuel main mainName dir path = (.ok out, b1))
    (hc' : b.compile w fuel' whole wholeName dir path = (.ok out', b2)) :
    SameTypesInOrder out.registry out'.registry ∧
    (∀ n, extractSchemas n out.registry.schemas = extractSchemas n out'.registry.schemas) ∧
    ((∀ q, out.file = .protocol q → ∀ nm ∈ q.messages, nm.2.noDefs) →
      ∀ n, outputJson n out = outputJson n out') := by
  obtain ⟨ws, hp⟩ := h.readMain
  obtain ⟨ws', hp'⟩ := h.readWhole
  obtain ⟨_, _, _, es, S, k, g1, g2, g3, _, g5, _, g7, _⟩ := compile_ok hc
  obtain ⟨_, _, _, es', S', k', f1, f2, f3, _, f5, _, f7, _⟩ := compile_ok hc'
  rw [hp] at g1
  rw [hp'] at f1
  simp only [Except.ok.injEq, Prod.mk.injEq] at g1 f1
  obtain ⟨rfl, rfl, rfl⟩ := g1
  obtain ⟨rfl, rfl, rfl⟩ := f1
  obtain ⟨es2, T, t1, t2⟩ := movedOut_out h f2
  obtain rfl := C21_trace_determined t1 g2
  have hreg : bareTable out.registry = bareTable out'.registry := by
    obtain ⟨k2, r1, r2⟩ := runEvents_same (w := w) (fuel := fuel) t2.same (k' := ⟨[], [], []⟩) rfl g3
    have e1 := firstAccepted_of_run r1
    have e2 := firstAccepted_of_run f3
    rw [g5, f5, e2, ← e1]
    exact r2
  have hsch : out.registry.schemas.map Schema.bare = out'.registry.schemas.map Schema.bare := by
    rw [← schemas_table, ← schemas_table, hreg]
  refine ⟨hreg, fun n => ?_, fun hmsg n => ?_⟩
  · rw [← extractSchemas_bare, hsch, extractSchemas_bare]
  · have hm := fun n => movedOut_messages h f2 t2 n
    have hflat := fun t ht => (compile_types hc t ht).2
    have hh := h.header
    obtain ⟨f, r, _⟩ := out
    obtain ⟨f', r', _⟩ := out'
    dsimp only at hreg hsch g7 f7 hmsg hflat
    cases hh with
    | @protocol q q' h1 h2 h3 h4 =>
      cases f with
      | schema s => exact g7.elim
      | named s => exact g7.elim
      | protocol o =>
        cases f' with
        | schema s => exact f7.elim
        | named s => exact f7.elim
        | protocol o' =>
          dsimp only at g7 f7
          have hmsg := hmsg o rfl
          simp only [IdlFile.messages] at hm
          have hperm := bareMessages_perm hm
          have hnd := (extendMessages_spec (es2.flatMap Event.messages ++ q.messages) []
            (by simp)).1
          rw [extendMessages_append, extendMessages_append] at hperm
          rw [extendMessages_append] at hnd
          have e1 : o.types = r.schemas := by rw [g7]
          have e2 : o'.types = r'.schemas := by rw [f7]
          have e3 : o.messages = extendMessages (extendMessages [] (es2.flatMap Event.messages))
              q.messages := by rw [g7]
          have e4 : o'.messages = extendMessages (extendMessages [] (es'.flatMap Event.messages))
              q'.messages := by rw [f7]
          rw [← e3, ← e4] at hperm
          rw [← e3] at hnd
          have e5 : o'.bare = { o.bare with messages := o'.messages.map bareMessage } := by
            unfold Protocol.bare
            dsimp only
            rw [e2, ← hsch, e1]
            rw [g7, f7]
            simp [h1, h2, h3, h4]
          show protocolToJson n o = protocolToJson n o'
          rw [← protocolToJson_bare n o, ← protocolToJson_bare n o', e5]
          refine protocolToJson_perm ?_ ?_ hperm ?_ n
          · intro t ht
            obtain ⟨t', ht', rfl⟩ := List.mem_map.mp ht
            rw [flatDef_bare]
            exact hflat t' (e1 ▸ ht')
          · intro m hm
            obtain ⟨m', hm', rfl⟩ := List.mem_map.mp hm
            exact message_noDefs_bare (hmsg m' hm')
          · have : ∀ m : List (String × Message),
                (m.map bareMessage).map Prod.fst = m.map Prod.fst := by
              intro m; simp [bareMessage, Function.comp_def]
            show ((o.messages.map bareMessage).map Prod.fst).Nodup
            rw [this]
            exact hnd
    | @schema s s' hs =>
      cases f with
      | protocol s => exact g7.elim
      | named s => exact g7.elim
      | schema o =>
        cases f' with
        | protocol s => exact f7.elim
        | named s => exact f7.elim
        | schema o' =>
          dsimp only at g7 f7
          subst g7 f7
          have hl : bareTable (buildLookup r.schemas none) =
              bareTable (buildLookup r'.schemas none) := by
            rw [← buildLookup_bare, ← buildLookup_bare, hsch]
          unfold outputJson
          dsimp only
          rw [← schemaToJson_bare, hl, hs, schemaToJson_bare]

end

/-! ## Examples, and where the property fails -/

/-- What was read. -/
def parsedOr (r : Except CompileErr (IdlFile × List DeclItem × List Warning)) :
    IdlFile × List DeclItem × List Warning :=
  match r with
  | .ok x => x
  | .error _ => (.named [], [], [])

theorem parsed_of_ok {r : Except CompileErr (IdlFile × List DeclItem × List Warning)}
    (h : r.toBool = true) : r = .ok ((parsedOr r).1, (parsedOr r).2.1, (parsedOr r).2.2) := by
  cases r with
  | ok x => rfl
  | error e => cases h

/-- The declarations before and after the first import, and the import. -/
def atImport : List DeclItem → List DeclItem × Option ImportEntry × List DeclItem
  | [] => ([], none, [])
  | .import_ i :: l => ([], some i, l)
  | .type s a b :: l => (.type s a b :: (atImport l).1, (atImport l).2)

theorem atImport_eq : ∀ {l : List DeclItem} {i : ImportEntry}, (atImport l).2.1 = some i →
    l = (atImport l).1 ++ .import_ i :: (atImport l).2.2
  | [], _, h => by cases h
  | .import_ i :: l, _, h => by injection h with h; subst h; rfl
  | .type s a b :: l, i, h => by
      have := atImport_eq (l := l) (i := i) h
      rw [atImport, List.cons_append, ← this]

/-- `SameDecls`, as a computation. -/
def sameDeclsCheck : List DeclItem → List DeclItem → Bool
  | [], [] => true
  | .type s _ _ :: l, .type s' _ _ :: l' => decide (s.bare = s'.bare) && sameDeclsCheck l l'
  | .import_ i :: l, .import_ i' :: l' =>
      decide (i.kind = i'.kind) && decide (i.path = i'.path) && sameDeclsCheck l l'
  | _, _ => false

theorem sameDecls_of_check : ∀ {l l' : List DeclItem}, sameDeclsCheck l l' = true → SameDecls l l'
  | [], [], _ => .nil
  | .type s _ _ :: l, .type s' _ _ :: l', h => by
      simp only [sameDeclsCheck, Bool.and_eq_true, decide_eq_true_eq] at h
      exact .cons (.type h.1) (sameDecls_of_check h.2)
  | .import_ i :: l, .import_ i' :: l', h => by
      simp only [sameDeclsCheck, Bool.and_eq_true, decide_eq_true_eq] at h
      exact .cons (.import_ h.1.1 h.1.2) (sameDecls_of_check h.2)
  | .type .. :: _, .import_ _ :: _, h => by cases h
  | .import_ _ :: _, .type .. :: _, h => by cases h
  | .type .. :: _, [], h => by cases h
  | .import_ _ :: _, [], h => by cases h
  | [], .type .. :: _, h => by cases h
  | [], .import_ _ :: _, h => by cases h

/-- `SameHeader` for protocols, as a computation. -/
def sameHeaderCheck : IdlFile → IdlFile → Bool
  | .protocol p, .protocol p' =>
      decide (p.name = p'.name ∧ p.ns = p'.ns ∧ p.doc = p'.doc ∧ p.props = p'.props)
  | _, _ => false

theorem sameHeader_of_check {f f' : IdlFile} (h : sameHeaderCheck f f' = true) :
    SameHeader f f' := by
  unfold sameHeaderCheck at h
  split at h
  · have := of_decide_eq_true h
    exact .protocol this.1 this.2.1 this.2.2.1 this.2.2.2
  · cases h

/-- The same messages, as a computation. -/
def sameMessagesCheck (l l' : List (String × Message)) : Bool :=
  decide ((l.map bareMessage) = l'.map bareMessage)

theorem lastEntry_bare (l : List (String × Message)) (n : String) :
    (lastEntry l n).map Message.bare = lastEntry (l.map bareMessage) n := by
  unfold lastEntry
  rw [← List.map_reverse, List.find?_map]
  simp only [Option.map_map, Function.comp_def, bareMessage]

theorem agree_of_check {l l' : List (String × Message)} (h : sameMessagesCheck l l' = true)
    (n : String) : AgreeOnMessage l l' n := by
  unfold AgreeOnMessage
  rw [lastEntry_bare, lastEntry_bare, of_decide_eq_true h]

def isTypeDecl : DeclItem → Bool
  | .type .. => true
  | .import_ _ => false

theorem neverImports_of_types [CharTables] [FloatTables] [CaseTables] {w : World} {dirs : List Path}
    {p dir : Path} {items : List DeclItem} (h : items.all isTypeDecl = true) :
    NeverImports w dirs p dir items := by
  have hno : ∀ i, .import_ i ∉ items := fun i hi => by
    have := List.all_eq_true.mp h _ hi
    cases this
  intro name text ps u i hc hi _
  cases hc with
  | here => exact hno i hi
  | into hh _ _ =>
    obtain ⟨j, hj, _⟩ := hh
    exact hno j hj

theorem noMessages_of_types [CharTables] [FloatTables] [CaseTables] {w : World} {dirs : List Path}
    {dir : Path} {S : List Path} {items : List DeclItem} {es : List Event} {e : Ending}
    (h : Trace w dirs dir S items es e) (hi : items.all isTypeDecl = true) :
    ∀ ev ∈ es, ev.messages = [] := by
  induction h with
  | nil => simp
  | cut => simp
  | type _ ih =>
    rw [List.all_cons, Bool.and_eq_true] at hi
    intro ev hev
    rcases List.mem_cons.mp hev with rfl | hev
    · rfl
    · exact ih hi.2 ev hev
  | _ => rw [List.all_cons, Bool.and_eq_true] at hi; cases hi.1

section
attribute [local instance] asciiTables exFloats exCases exJsonFloats

/-- A protocol, and one with two of its declarations and a message moved to the file `x`.  The file
`y` has a message of the same name as the file `z`, which imports it. -/
def exWhole : String :=
  "@namespace(\"p\")protocol P{enum Z{Q}record A{B?b;Z z=\"Q\";}record B{A a;}error E{}A f(B b);B g()throws E;}"
def exMain : String :=
  "@namespace(\"p\")protocol P{enum Z{Q}\n import idl \"x\"; error E{}B g()throws E;}"
def exParts (p : Path) : Option String :=
  if p = "x" then some "@namespace(\"p\")protocol X{record A{B?b;Z z=\"Q\";} record B{A a;} A f(B b);}"
  else if p = "y" then some "protocol Y{int f();}"
  else if p = "z" then some "protocol Z{import idl \"y\"; void f();}"
  else none

def exSplitWorld : World := exReimportWorld exParts
def exSplitOut (text : String) : Except CompileErr CompileOutput × Builder :=
  Builder.new.compile exSplitWorld 9 text "" "" none
def exParsed (text : String) : Except CompileErr (IdlFile × List DeclItem × List Warning) :=
  parseIdl exSplitWorld text ""
def exPart : Except CompileErr (IdlFile × List DeclItem × List Warning) := readIdl exSplitWorld "x"

def messageOf (n : String) (r : Except CompileErr CompileOutput × Builder) : Option Schema :=
  match (compiledOr r).file with
  | .protocol p => (lastEntry p.messages n).map (·.response)
  | _ => none

/-- **C66 fails, messages.**  `z` has a message `f` that returns nothing, and imports `y`, which has a
message `f` that returns an integer.  With the declaration and the message of `z` in the file
itself, the message returns nothing; when they stay in `z` and `z` is imported, the message returns an
integer. -/
theorem C66_fails_nested_message :
    messageOf "f" (exSplitOut "protocol P{import idl \"y\"; void f();}") = some (.prim .null) ∧
    messageOf "f" (exSplitOut "protocol P{import idl \"z\";}") = some (.prim .int) := by
  have h : (decide (messageOf "f" (exSplitOut "protocol P{import idl \"y\"; void f();}") =
      some (.prim .null)) && decide (messageOf "f" (exSplitOut "protocol P{import idl \"z\";}") =
      some (.prim .int))) = true := by decide +kernel
  simpa only [Bool.and_eq_true, decide_eq_true_eq] using h

def exMainDecls : List DeclItem := (parsedOr (exParsed exMain)).2.1
def exWholeDecls : List DeclItem := (parsedOr (exParsed exWhole)).2.1
def exMovedDecls : List DeclItem := (parsedOr exPart).2.1

theorem exSplit_checks : ((exParsed exMain).toBool && (exParsed exWhole).toBool && exPart.toBool &&
    sameDeclsCheck exWholeDecls
      ((atImport exMainDecls).1 ++ exMovedDecls ++ (atImport exMainDecls).2.2) &&
    sameHeaderCheck (parsedOr (exParsed exMain)).1 (parsedOr (exParsed exWhole)).1 &&
    sameMessagesCheck (parsedOr (exParsed exWhole)).1.messages
      ((parsedOr exPart).1.messages ++ (parsedOr (exParsed exMain)).1.messages) &&
    exWholeDecls.all isTypeDecl && decide (exMovedDecls.length = 2) &&
    (match (atImport exMainDecls).2.1 with
      | some i => decide (i.kind = .idl) && decide (i.path = "x")
      | none => false)) = true := by decide +kernel

theorem exSplit_outputs : ((exSplitOut exMain).1.toBool && (exSplitOut exWhole).1.toBool &&
    noDefsCheck (compiledOr (exSplitOut exMain)).file) = true := by decide +kernel

theorem exSplit_leads : ImportsTo exSplitWorld [] "" "x" "x" :=
  ⟨"x", ⟨0, "", rfl, rfl, by decide, by simp⟩, rfl⟩

theorem exParsed_eq (text : String) : parseIdl exSplitWorld text "" = exParsed text := rfl
theorem exPart_eq : readIdl exSplitWorld "x" = exPart := rfl

attribute [local irreducible] exParsed exPart Builder.compile

/-- Non-vacuity: two records and a message are moved; both texts compile. -/
example : ∃ file file' part before moved after decls' i out out' b1 b2,
    MovedOut exSplitWorld [] exMain "" exWhole "" "" none "x" file file' part before moved after
      decls' i ∧ moved.length = 2 ∧
    Builder.new.compile exSplitWorld 9 exMain "" "" none = (.ok out, b1) ∧
    Builder.new.compile exSplitWorld 9 exWhole "" "" none = (.ok out', b2) ∧
    (∀ q, out.file = .protocol q → ∀ nm ∈ q.messages, nm.2.noDefs) := by
  have hk := exSplit_checks
  have ho := exSplit_outputs
  simp only [Bool.and_eq_true] at hk ho
  obtain ⟨⟨⟨⟨⟨⟨⟨⟨k1, k2⟩, k3⟩, k4⟩, k5⟩, k6⟩, k7⟩, k8⟩, k9⟩ := hk
  obtain ⟨⟨o1, o2⟩, o3⟩ := ho
  have r1 := (exParsed_eq exMain).trans (parsed_of_ok k1)
  have r2 := (exParsed_eq exWhole).trans (parsed_of_ok k2)
  have r3 := exPart_eq.trans (parsed_of_ok k3)
  have hok : ∀ {r : Except CompileErr CompileOutput × Builder}, r.1.toBool = true →
      r = (.ok (compiledOr r), r.2) := by
    intro r h
    obtain ⟨r, b⟩ := r
    cases r with
    | ok x => rfl
    | error e => cases h
  cases hi : (atImport exMainDecls).2.1 with
  | none => rw [hi] at k9; cases k9
  | some i =>
    rw [hi] at k9
    simp only [Bool.and_eq_true, decide_eq_true_eq] at k9
    have hsplit := atImport_eq hi
    refine ⟨_, _, _, _, _, _, _, i, compiledOr (exSplitOut exMain), compiledOr (exSplitOut exWhole),
      _, _, ⟨⟨_, r1.trans (by rw [← hsplit, exMainDecls])⟩, ⟨_, r2⟩, ⟨_, r3⟩, sameDecls_of_check k4,
        sameHeader_of_check k5, agree_of_check k6, k9.1, k9.2 ▸ exSplit_leads, rfl, nofun,
        neverImports_of_types k7, ?_⟩, of_decide_eq_true k8, hok o1, hok o2, ?_⟩
    · intro es seen ht ev hev nm hnm
      rw [noMessages_of_types ht k7 ev hev] at hnm
      cases hnm
    · exact noDefs_of_check o3

end

end Avdl.Props
