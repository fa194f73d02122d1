import Verif.Py.Dict
/-
Filtered dictionaries.
-/
namespace Mcpyrate.Py.Dict

theorem get_filter {α : Type} (p : String × α → Bool) (d : Dict String α) (hd : Dict.WF d) (k : String) :
    Dict.get (d.filter p) k = (Dict.get d k).filter fun v => p (k, v) := by
  induction d with
  | nil => rfl
  | cons q d ih =>
    obtain ⟨k', v⟩ := q
    have hd2 : (k' :: Dict.keys d).Nodup := hd
    rw [List.nodup_cons] at hd2
    have ih := ih hd2.2
    rw [List.filter_cons]
    by_cases hk : k' = k
    · subst hk
      have hnone : Dict.get d k' = none := (Dict.get_eq_none d k').mpr hd2.1
      cases hp : p (k', v) with
      | true => simp [Dict.get_cons, Option.filter, hp]
      | false =>
        simp only [Bool.false_eq_true, if_false, ih, hnone, Dict.get_cons, if_true]
        simp [Option.filter, hp]
    · cases hp : p (k', v) with
      | true => simp [Dict.get_cons, hk, ih]
      | false => simp [Dict.get_cons, hk, ih]

theorem WF_filter {α : Type} (p : String × α → Bool) (d : Dict String α) (hd : Dict.WF d) : Dict.WF (d.filter p) :=
  List.Pairwise.sublist (List.filter_sublist.map _) hd

end Mcpyrate.Py.Dict
