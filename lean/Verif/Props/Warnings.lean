import Verif.Props.Acceptance
import Verif.Props.CompileApi
import Verif.Props.Reimport
/-!
# C58 What a warning says and where it points
-/

namespace Avdl.Props
open Spec Spec.Grammar Spec.Lexing

section
variable [CharTables] [FloatTables] [CaseTables]

omit [CharTables] [FloatTables] [CaseTables] in
/-- **C58, no panic.** Every warning has a message and a label. -/
theorem C58_shown (x : Warning) : (∃ m, x.message = some m) ∧ ∃ l, x.label = some l := by
  have h : ∃ m, x.message = some m := by
    cases x with
    | lexer e =>
      obtain ⟨y, hy, -⟩ := listen_ok none ⟨none, e.line, e.column, lexMessage e.text⟩
      exact ⟨y.message, by rw [Warning.message, hy]; rfl⟩
    | outOfPlaceDoc => exact ⟨_, rfl⟩
    | walk w => cases w <;> exact ⟨_, rfl⟩
  obtain ⟨m, hm⟩ := h
  exact ⟨⟨m, hm⟩, labelOf m, by rw [Warning.label, hm]; rfl⟩

omit [CharTables] [FloatTables] [CaseTables] in
theorem joinWith_mem {sep : String} {w : List Char} : ∀ {ws : List (List Char)}, w ∈ ws →
    w <:+: joinWith sep ws
  | [v], h => by
      obtain rfl := List.mem_singleton.mp h
      exact List.infix_refl _
  | v :: u :: ws, h => by
      rw [joinWith]
      · rcases List.mem_cons.mp h with rfl | h
        · rw [List.append_assoc]
          exact ⟨[], _, rfl⟩
        · exact (joinWith_mem h).trans ⟨v ++ sep.toList, [], List.append_nil _⟩
      · exact fun h => by cases h

omit [CharTables] [FloatTables] [CaseTables] in
/-- **C58, message.** The message tells what the warning is about, and in which line if it gives one.

Missing: unrecognised text with words of ANTLR's in it; there the property does not hold
(`C58_fails_message`). -/
theorem C58_message_partial (x : Warning)
    (hx : ∀ e, x = .lexer e → ∀ ph ∈ rewordedPhrases, ¬ ContainsPhrase e.text ph) :
    ∃ m, x.message = some m ∧ ∀ s ∈ subjects x, s <:+: m := by
  cases x with
  | lexer e =>
    have hm : (Warning.lexer e).message = some (linePart e.line e.column ++ lexMessage e.text) := by
      rw [Warning.message, listen_lexMessage (hx e rfl), Option.map_some]
    refine ⟨_, hm, fun s hs => ?_⟩
    rw [lexMessage_eq]
    have hq : "'".toList = ['\''] := by decide +kernel
    simp only [subjects, hq] at hs
    revert hs
    unfold linePart
    generalize "line ".toList = a
    generalize ":".toList = b
    generalize " ".toList = c
    generalize "token recognition error at: ".toList = d
    intro hs
    rcases List.mem_cons.mp hs with rfl | hs
    · exact ⟨[], c ++ (d ++ '\'' :: (e.text.toList ++ ['\''])), by simp⟩
    · obtain rfl := List.mem_singleton.mp hs
      exact ⟨a ++ Nat.toDigits 10 e.line ++ b ++ Nat.toDigits 10 e.column ++ c ++ d, [], by simp⟩
  | outOfPlaceDoc i line column sp =>
    refine ⟨_, rfl, fun s hs => ?_⟩
    obtain rfl := List.mem_singleton.mp hs
    refine ⟨[], (" Ignoring out-of-place documentation comment.\n" ++
          "Did you mean to use a multiline comment ( /* ... */ ) instead?").toList, ?_⟩
    have e : (": Ignoring out-of-place documentation comment.\n" ++
          "Did you mean to use a multiline comment ( /* ... */ ) instead?").toList = ":".toList ++
        (" Ignoring out-of-place documentation comment.\n" ++
          "Did you mean to use a multiline comment ( /* ... */ ) instead?").toList := by
      decide +kernel
    rw [e, List.nil_append, List.append_assoc]
  | walk w =>
    cases w with
    | nonStandardAlias a sp =>
      refine ⟨_, rfl, fun s hs => ?_⟩
      obtain rfl := List.mem_singleton.mp hs
      refine ⟨"Alias ".toList, (" is not a valid Avro name. " ++
        "While any string is accepted to allow schema evolution to " ++
        "correct illegal names in old schemata, aliases should ideally be valid names.").toList, ?_⟩
      have e1 : "Alias \"".toList = "Alias ".toList ++ "\"".toList := by decide +kernel
      have e2 : ("\" is not a valid Avro name. " ++
        "While any string is accepted to allow schema evolution to " ++
        "correct illegal names in old schemata, aliases should ideally be valid names.").toList =
        "\"".toList ++ (" is not a valid Avro name. " ++
        "While any string is accepted to allow schema evolution to " ++
        "correct illegal names in old schemata, aliases should ideally be valid names.").toList := by
        decide +kernel
      rw [e1, e2]
      generalize "Alias ".toList = p
      generalize "\"".toList = q
      generalize (" is not a valid Avro name. " ++
        "While any string is accepted to allow schema evolution to " ++
        "correct illegal names in old schemata, aliases should ideally be valid names.").toList = r
      simp only [List.append_assoc]
    | annotationsDropped keys sp =>
      exact ⟨_, rfl, fun s hs => (joinWith_mem hs).trans ⟨_, [], List.append_nil _⟩⟩

/-- **C58, where.** Every warning of a text points at what it is about. -/
theorem C58_where {w : World} (hw : w.parse = parseSource) {text name : String}
    {f : IdlFile} {ds : List DeclItem} {ws : List Warning}
    (h : parseIdl w text name = .ok (f, ds, ws)) : ∀ x ∈ ws, WarningPlaced name text x := by
  have hwalk := C54_where hw h
  obtain ⟨ps, src, errors, orphans, docs, walk, rfl, hps, -, -, he, -, -, hd, -⟩ :=
    C54_text_warnings hw h
  intro x hx
  rcases List.mem_append.mp hx with hx | hx
  · rcases List.mem_append.mp hx with hx | hx
    · obtain ⟨e, hm, rfl⟩ := List.mem_map.mp hx
      obtain ⟨y, hy, hye⟩ := matching_mem he hm
      exact .lexer hps hy hye
    · obtain ⟨i, -, hi⟩ := matching_mem hd hx
      exact .doc hps hi
  · obtain ⟨y, hm, rfl⟩ := List.mem_map.mp hx
    exact .walk (hwalk y (List.mem_append_right _ hx))

omit [CaseTables] in
theorem marked_of_placed {file text : String} {x : Warning} (h : WarningPlaced file text x) :
    ∃ s, x.span = some s ∧ s.file = file ∧ Marked file text x s := by
  cases h with
  | lexer hps hx he => exact ⟨_, rfl, he.file, .lexer hps hx he.text he.span⟩
  | doc hps hd =>
    obtain ⟨before, t, hi, rfl⟩ := hd
    exact ⟨_, rfl, rfl, .doc hps hi rfl rfl⟩
  | @walk y h =>
    obtain ⟨node, s, hn, ha, hs, hf, hc⟩ := h
    refine ⟨s, ?_, hf, .walk hn ha hc⟩
    cases y with
    | nonStandardAlias a sp => exact hs
    | annotationsDropped keys sp => exact hs

/-- **C58, marked range.** Every warning of a text is shown with a range of the file, where the thing
stands that it is about. -/
theorem C58_marked {w : World} (hw : w.parse = parseSource) {text name : String}
    {f : IdlFile} {ds : List DeclItem} {ws : List Warning}
    (h : parseIdl w text name = .ok (f, ds, ws)) :
    ∀ x ∈ ws, ∃ s, x.span = some s ∧ s.file = name ∧ Marked name text x s :=
  fun x hx => marked_of_placed (C58_where hw h x hx)

omit [CaseTables] in
/-- **C58, label.** The label of a warning fits what it is about.

Missing: unrecognised text and aliases that contain the very phrases by which the program tells
messages apart; there the property does not hold (`C58_fails_label`). -/
theorem C58_label_partial {file text : String} {x : Warning} (hx : WarningPlaced file text x)
    (hq : QuotesPlainly x) : x.label = some (fittingLabel x) := by
  cases hx with
  | lexer => exact label_lexer hq
  | doc _ h =>
    obtain ⟨before, t, -, rfl⟩ := h
    exact label_doc ..
  | @walk y h =>
    cases y with
    | nonStandardAlias a s => exact label_alias hq s
    | annotationsDropped keys s => exact label_dropped (dropped_blank h) s

theorem trace_reports {w : World} {dirs : List Path} {dir : Path} {seen : List Path}
    {items : List DeclItem} {es : List Event} {e : Ending} (h : Trace w dirs dir seen items es e) :
    ∀ p as f ws, .idl p as f ws ∈ es → ∃ ds, readIdl w p = .ok (f, ds, ws) := by
  induction h with
  | nil | cut | notFound | notCanonical | badJson | badIdl => intro p as f ws hm; cases hm
  | again _ _ _ ih => exact ih
  | type _ ih | schema _ _ _ _ _ ih | protocol _ _ _ _ _ ih =>
    intro p as f ws hm
    rcases List.mem_cons.mp hm with h | hm
    · cases h
    · exact ih p as f ws hm
  | idl _ _ _ hr _ _ ih1 ih2 =>
    intro p as f ws hm
    rcases List.mem_cons.mp hm with h | hm
    · cases h; exact ⟨_, hr⟩
    · rcases List.mem_append.mp hm with hm | hm
      · exact ih1 p as f ws hm
      · exact ih2 p as f ws hm
  | idlEnds _ _ _ hr _ _ ih =>
    intro p as f ws hm
    rcases List.mem_cons.mp hm with h | hm
    · cases h; exact ⟨_, hr⟩
    · exact ih p as f ws hm

/-- **C58, compilations.** The same for all warnings of a compilation: each is about the source or
about an imported file and points there; those of imported files carry the name of the file. -/
theorem C58_where_compiled {w : World} (hw : w.parse = parseSource) {dirs : List Path} {fuel : Nat}
    {text name : String} {dir : Path} {path : Option Path} {rs : List Report}
    (h : Raises w dirs fuel text name dir path rs) : ∀ r ∈ rs,
    (r.context = none ∧ WarningPlaced name text r.warning) ∨
    ∃ p as content, r.context = some ((w.fileName p).getD as) ∧ w.read p = some content ∧
      WarningPlaced p content r.warning := by
  have key : ∀ {file decls ws es seen items e}, parseIdl w text name = .ok (file, decls, ws) →
      Trace w dirs dir seen items es e →
      ∀ r ∈ ws.map (fun x => (⟨x, none⟩ : Report)) ++ es.flatMap (Event.reports w),
      (r.context = none ∧ WarningPlaced name text r.warning) ∨
      ∃ p as content, r.context = some ((w.fileName p).getD as) ∧ w.read p = some content ∧
        WarningPlaced p content r.warning := by
    intro file decls ws es seen items e hp ht r hr
    rcases List.mem_append.mp hr with hr | hr
    · obtain ⟨x, hx, rfl⟩ := List.mem_map.mp hr
      exact .inl ⟨rfl, C58_where hw hp x hx⟩
    · obtain ⟨ev, hev, hr⟩ := List.mem_flatMap.mp hr
      cases ev with
      | idl p as f ws =>
        obtain ⟨x, hx, rfl⟩ := List.mem_map.mp hr
        obtain ⟨ds, hd⟩ := trace_reports ht p as f ws hev
        unfold readIdl at hd
        cases hc : w.read p with
        | none => rw [hc] at hd; cases hd
        | some content =>
          rw [hc] at hd
          exact .inr ⟨p, as, content, rfl, hc, C58_where hw hd x hx⟩
      | _ => cases hr
  cases h with
  | unread => intro r hr; cases hr
  | all hp ht _ | stuck hp ht _ => exact key hp ht
  | @failed _ _ _ es ev _ _ hp ht _ _ =>
    intro r hr
    refine key hp ht r ?_
    rw [List.flatMap_append, ← List.append_assoc]
    exact List.mem_append_left _ hr

/-- **C58, marked range in compilations.** The same for all warnings of a compilation. -/
theorem C58_marked_compiled {w : World} (hw : w.parse = parseSource) {dirs : List Path} {fuel : Nat}
    {text name : String} {dir : Path} {path : Option Path} {rs : List Report}
    (h : Raises w dirs fuel text name dir path rs) : ∀ r ∈ rs, ∃ s, r.warning.span = some s ∧
    ((r.context = none ∧ s.file = name ∧ Marked name text r.warning s) ∨
    ∃ p as content, r.context = some ((w.fileName p).getD as) ∧ w.read p = some content ∧
      s.file = p ∧ Marked p content r.warning s) := by
  intro r hr
  rcases C58_where_compiled hw h r hr with ⟨hc, hp⟩ | ⟨p, as, content, hc, hread, hp⟩
  · obtain ⟨s, hs, hf, hm⟩ := marked_of_placed hp
    exact ⟨s, hs, .inl ⟨hc, hf, hm⟩⟩
  · obtain ⟨s, hs, hf, hm⟩ := marked_of_placed hp
    exact ⟨s, hs, .inr ⟨p, as, content, hc, hread, hf, hm⟩⟩

end

/-! ## Examples -/

attribute [local instance] asciiTables exFloats exCases exJsonFloats

/-- What is shown of the warnings of a compilation of a text that may import a file `b`. -/
def exWarnRun (text imported : String) :
    List (Option String × Option String × Option Span × Option String) :=
  match (Builder.new.compile
      (exReimportWorld fun p => if p = "b" then some imported else none) 9 text "a" "" (some "a")).1 with
  | .ok o => o.warnings.map fun r =>
      (r.warning.message.map String.ofList, r.warning.label, r.warning.span, r.context)
  | .error _ => []

/-- All kinds of warnings, with an imported file. -/
example : exWarnRun ("protocol P { /** x */ import idl \"b\"; #\n" ++
      "@aliases([\"1\"]) record R { @k(1) @`l`(2) union { int } x; } }")
      "/** ü */ enum E { A }\n # enum F { B }" = [
    (some "line 1:38 token recognition error at: '#'", some "unrecognized token",
      some ⟨38, 1, "a"⟩, none),
    (some ("Line 1, char 14: Ignoring out-of-place documentation comment.\n" ++
        "Did you mean to use a multiline comment ( /* ... */ ) instead?"),
      some "out-of-place doc comment", some ⟨13, 8, "a"⟩, none),
    (some ("Alias \"1\" is not a valid Avro name. While any string is accepted to allow schema " ++
        "evolution to correct illegal names in old schemata, aliases should ideally be valid names."),
      some "non-standard alias name", some ⟨40, 15, "a"⟩, none),
    (some "Annotations on union types are not supported and will be ignored: k, l",
      some "annotations ignored here", some ⟨67, 27, "a"⟩, none),
    (some "line 2:1 token recognition error at: '#'", some "unrecognized token",
      some ⟨24, 1, "b"⟩, some "b")] := by decide +kernel

/-- **C58 fails.** Unrecognised text that looks like a word of ANTLR's is quoted wrongly: here a
string that is not closed. -/
theorem C58_fails_message : exWarnRun "protocol P { } \"IdentifierToken <EOF>\n" "" =
    [(some "line 1:15 token recognition error at: '\"identifier end of file\n'",
      some "unrecognized token", some ⟨15, 1, "a"⟩, none)] := by decide +kernel

/-- **C58 fails.** A warning that quotes the wrong words gets the label of another kind. -/
theorem C58_fails_label :
    (exWarnRun "@aliases([\"token recognition error\"]) enum E { A }" "").map (·.2.1) =
      [some "unrecognized token"] ∧
    (exWarnRun "protocol P { } \"out-of-place documentation comment\n" "").map (·.2.1) =
      [some "out-of-place doc comment"] := by decide +kernel

/-- **C58 fails.** Behind a character of several bytes in the same line the position of unrecognised
text is wrong: the sign `#` is the 23rd byte of this text, not the 22nd. -/
theorem C58_fails_where : (exWarnRun "/* ü */ protocol P { # }" "").map (·.2.2.1) =
      [some ⟨21, 1, "a"⟩] ∧
    ("/* ü */ protocol P { # }".toUTF8.toList.map UInt8.toNat)[22]? = some '#'.toNat := by
  decide +kernel

end Avdl.Props
