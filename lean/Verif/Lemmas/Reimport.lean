import Verif.Lemmas.Kept
import Verif.Lemmas.JsonPretty
import Verif.Spec.Reimport
import Verif.Props.JsonText
/-! # From what the compiler produces to the conditions for reading it again -/

namespace Avdl
open Spec Lemmas

/-! ## Documents -/

mutual
theorem storable_of_held [JsonFloats] : ∀ {j : Json}, Held j → FloatsSurvive j → Storable j
  | .null, _, _ => trivial
  | .bool _, _, _ => trivial
  | .num (.int _), h, _ => h
  | .num (.float ..), _, h => h
  | .str _, _, _ => trivial
  | .arr _, h, hf => storableList_of_held h hf
  | .obj _, h, hf => ⟨h.1, storableMap_of_held h.2 hf⟩
theorem storableList_of_held [JsonFloats] : ∀ {l : List Json}, HeldList l → FloatsSurviveList l →
    StorableList l
  | [], _, _ => trivial
  | _ :: _, h, hf => ⟨storable_of_held h.1 hf.1, storableList_of_held h.2 hf.2⟩
theorem storableMap_of_held [JsonFloats] : ∀ {m : List (String × Json)}, HeldMap m →
    FloatsSurviveMap m → StorableMap m
  | [], _, _ => trivial
  | (_, _) :: _, h, hf => ⟨storable_of_held h.1 hf.1, storableMap_of_held h.2 hf.2⟩
end

mutual
/-- What a text denotes can be held. -/
theorem held_of_val [JsonFloats] {B : List Char → Prop} {d : Nat} {cs : List Char} {j : Json}
    (h : JsonVal B d cs j) : Held j := by
  cases h with
  | null => trivial
  | true => trivial
  | false => trivial
  | num hn =>
    cases hn with
    | natural _ _ hv => simp only [Held]; omega
    | negative _ _ _ hv => simp only [Held]; omega
    | float _ _ _ _ _ _ => trivial
  | str hs => trivial
  | arr0 hw => trivial
  | arr hl => exact heldList_iff.2 (held_of_vals hl)
  | obj0 hw => exact ⟨List.Pairwise.nil, trivial⟩
  | obj hm ho =>
    have := held_of_members hm
    refine ⟨ho.1, heldMap_iff.2 fun x hx => ?_⟩
    have hget := JMap.get?_eq_some_of_nodup (JMap.Sorted.nodup ho.1) (k := x.1) (v := x.2) hx
    rw [ho.2 x.1] at hget
    exact this _ (lastMember_mem hget)
termination_by 2 * cs.length
decreasing_by all_goals (subst_vars; simp only [List.length_append, List.length_cons, List.length_nil]; omega)
theorem held_of_vals [JsonFloats] {B : List Char → Prop} {d : Nat} {cs : List Char}
    {l : List Json} (h : JsonVals B d cs l) : ∀ j ∈ l, Held j := by
  cases h with
  | one hw hv hw' =>
    have := held_of_val hv
    simpa using this
  | more hw hv hw' hl =>
    have h1 := held_of_val hv
    have h2 := held_of_vals hl
    simpa using ⟨h1, h2⟩
termination_by 2 * cs.length + 1
decreasing_by all_goals (subst_vars; simp only [List.length_append, List.length_cons]; omega)
theorem held_of_members [JsonFloats] {B : List Char → Prop} {d : Nat}
    {cs : List Char} {l : List (String × Json)} (h : JsonMembers B d cs l) :
    ∀ kv ∈ l, Held kv.2 := by
  cases h with
  | one hw hk hw1 hw2 hv hw' =>
    have := held_of_val hv
    simpa using this
  | more hw hk hw1 hw2 hv hw' hl =>
    have h1 := held_of_val hv
    have h2 := held_of_members hl
    intro kv hkv
    rcases List.mem_cons.1 hkv with rfl | hkv
    · exact h1
    · exact h2 kv hkv
termination_by 2 * cs.length + 1
decreasing_by all_goals (subst_vars; simp only [List.length_append, List.length_cons]; omega)
end

theorem parseJsonWithComments_held [JsonFloats] {text : String} {j : Json}
    (h : parseJsonWithComments text = some j) : Held j := by
  obtain ⟨_, _, _, _, hv, _⟩ := (Props.C44_reads_grammar text j).1 h
  exact held_of_val hv

/-! ## Types -/

theorem inNode_of {s : Schema} (hk : KeptNode s) (hf : FaithfulNode s) : InNode s := by
  cases s with
  | prim p => trivial
  | union ts b => trivial
  | record n ns d fs er al ps => exact ⟨hk.1, hf⟩
  | enum a b c d e f g => exact ⟨hk.1, hf⟩
  | fixed a b c d e f => exact ⟨hk.2.1, hf, hk.1⟩
  | array i ps => exact hk.1
  | map i ps => exact hk.1
  | annotated k ps => exact ⟨hk.1.1, hf⟩
  | logical lt ps =>
    refine ⟨hk.2.1, hf.1, fun p s h => ⟨hf.2 p s h, hk.1 p s h⟩⟩
  | ref n ns ps sp => exact hk

mutual
theorem in_of_kept : ∀ {s : Schema} {e e' : String}, s.Kept →
    s.Everywhere (fun _ => FaithfulNode) (fun _ => True) e →
    s.Everywhere (fun _ => InNode) InField e'
  | .prim _, _, _, _, _ => trivial
  | .union _ _, _, _, hk, hf => ⟨trivial, inL_of_kept hk hf.2⟩
  | .record .., _, _, hk, hf => ⟨inNode_of hk.1 hf.1, inF_of_kept hk.2 hf.2⟩
  | .enum .., _, _, hk, hf => inNode_of (s := .enum ..) hk hf
  | .fixed .., _, _, hk, hf => inNode_of (s := .fixed ..) hk hf
  | .array .., _, _, hk, hf => ⟨inNode_of hk.1 hf.1, in_of_kept hk.2 hf.2⟩
  | .map .., _, _, hk, hf => ⟨inNode_of hk.1 hf.1, in_of_kept hk.2 hf.2⟩
  | .annotated .., _, _, hk, hf => inNode_of (s := .annotated ..) hk hf
  | .logical .., _, _, hk, hf => inNode_of (s := .logical ..) hk hf
  | .ref .., _, _, hk, hf => inNode_of (s := .ref ..) hk hf
theorem inF_of_kept : ∀ {fs : List Field} {e e' : String}, Schema.KeptF fs →
    Schema.EverywhereF (fun _ => FaithfulNode) (fun _ => True) e fs →
    Schema.EverywhereF (fun _ => InNode) InField e' fs
  | [], _, _, _, _ => trivial
  | .mk .. :: _, _, _, hk, hf =>
    ⟨hk.1.1.1, in_of_kept hk.2.1 hf.2.1, inF_of_kept hk.2.2 hf.2.2⟩
theorem inL_of_kept : ∀ {ss : List Schema} {e e' : String}, Schema.KeptL ss →
    Schema.EverywhereL (fun _ => FaithfulNode) (fun _ => True) e ss →
    Schema.EverywhereL (fun _ => InNode) InField e' ss
  | [], _, _, _, _ => trivial
  | _ :: _, _, _, hk, hf => ⟨in_of_kept hk.1 hf.1, inL_of_kept hk.2 hf.2⟩
end

theorem inOk_of_kept {s : Schema} (hk : s.Kept) (hf : Faithful s) : InOk s := in_of_kept hk hf

theorem inMessage_of_kept {m : Message} (hk : m.Kept) (hf : FaithfulMessage m) : InMessage m where
  props := hk.props.1
  request f h := ⟨(hk.request f h).1.1.1, inOk_of_kept (hk.request f h).2 (hf.request f h)⟩
  response := inOk_of_kept hk.response hf.response
  errors es he s hs := inOk_of_kept (hk.errors es he s hs) (hf.errors es he s hs)

end Avdl
