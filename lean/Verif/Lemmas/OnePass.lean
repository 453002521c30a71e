import Verif.Spec.OnePass
import Verif.Lemmas.Json
import Verif.Lemmas.Names
import Verif.Serialize
/-! Lemmas connecting the one-pass specification with the serializer model. -/

namespace Avdl

open Spec

theorem attr_eq_get? (key : String) (m : JMap) : attr key m = JMap.get? m key := by
  induction m with
  | nil => rfl
  | cons kv t ih => obtain ⟨k, v⟩ := kv; simp [attr, JMap.get?, ih]

theorem eventsAttr_eq (e key : String) (m : JMap) :
    eventsAttr e key m = ((JMap.get? m key).map (events e)).getD [] := by
  induction m with
  | nil => simp [eventsAttr, JMap.get?]
  | cons kv t ih =>
    obtain ⟨k, v⟩ := kv
    simp only [eventsAttr, JMap.get?]
    split <;> simp [ih]

theorem fieldsAttr_eq (e key : String) (m : JMap) :
    fieldsAttr e key m = ((JMap.get? m key).map (fieldsEvents e)).getD [] := by
  induction m with
  | nil => simp [fieldsAttr, JMap.get?]
  | cons kv t ih =>
    obtain ⟨k, v⟩ := kv
    simp only [fieldsAttr, JMap.get?]
    split <;> simp [ih]

theorem run_append (a b : List Ev) (K : List String) :
    run (a ++ b) K = (run a K).bind (run b) := by
  induction a generalizing K with
  | nil => rfl
  | cons x t ih =>
    cases x <;> simp only [List.cons_append, run] <;> split <;> simp [ih]

theorem qualify_eq_makeFullName (ns : Option String) (n : String) :
    qualify (nsStr ns) n = makeFullName n ns := by
  rw [makeFullName_nsStr]
  rfl

end Avdl
