import Verif.Lemmas.Bunch
/-
C07 Bunch.
-/
namespace Mcpyrate
open Py Bunch

/-- The empty heap: no Bunch has been created yet. -/
def Bunch.empty {ν : Type} : Heap ν := ⟨[], []⟩

section
variable {ν : Type} [DecidableEq ν]

/-- C07: after any sequence of operations on any number of Bunches, every answer (values, key order,
exceptions) is that of plain dictionary values, one per Bunch, with no sharing between them: in
particular a copy is independent of its original, and `replace` installs a copy. -/
theorem C07_bunch_refines_dict (reserved : List String) (ops : List (Op ν)) :
    (run reserved Bunch.empty ops).map Prod.snd = (specRun reserved [] ops).map Prod.snd := by
  have h := run_refines (reserved := reserved) ops (s := (Bunch.empty : Heap ν))
    ⟨by simp [Bunch.empty], by simp [Bunch.empty]⟩
  have ha : abs (Bunch.empty : Heap ν) = [] := rfl
  rw [ha] at h
  cases hr : run reserved (Bunch.empty : Heap ν) ops with
  | none => rw [hr] at h; simp only at h; simp [h]
  | some p => rw [hr] at h; simp only at h; simp [h.2]

/-- C07: contents of every reachable Bunch have distinct keys, and the contents seen as a function
from keys to values change exactly as the operation says. -/
theorem C07_bunch_effect (reserved : List String) (d : Data ν) (hd : Dict.WF d) (o : Op ν) :
    Dict.WF (dictMethod reserved d o).1 ∧
    ∀ k, Dict.get (dictMethod reserved d o).1 k =
      match o with
      | .setitem _ k' v => if k' = k then some v else Dict.get d k
      | .setattr _ n v => if n ∉ reserved ∧ Key.str n = k then some v else Dict.get d k
      | .delitem _ k' => if k' = k then none else Dict.get d k
      | .delattr _ n => if Key.str n = k then none else Dict.get d k
      | .pop _ k' _ => if k' = k then none else Dict.get d k
      | .popitem _ => if d.getLast?.map Prod.fst = some k then none else Dict.get d k
      | .clear _ => none
      | .update _ kw => if "self" ∈ Dict.keys kw then Dict.get d k
                        else Dict.get (Dict.update d kw.toData) k
      | .setdefault _ k' v => if k' = k then some ((Dict.get d k).getD v) else Dict.get d k
      | _ => Dict.get d k := by
  cases o with
  | setattr h n v =>
    simp only [dictMethod]
    by_cases hn : n ∈ reserved
    · simp [hn, hd]
    · simp [hn, Dict.WF_set _ _ _ hd, Dict.get_set]
  | getattr h n => simp only [dictMethod]; split <;> simp [hd]
  | delattr h n =>
    simp only [dictMethod]
    cases hg : Dict.get d (.str n) with
    | none =>
      simp only [Option.isSome_none, Bool.false_eq_true, if_false]
      refine ⟨hd, fun k => ?_⟩
      split
      · rename_i he; subst he; exact hg
      · rfl
    | some v => simp [Dict.WF_del _ _ hd, Dict.get_del _ hd]
  | setitem h k v => simp [dictMethod, Dict.WF_set _ _ _ hd, Dict.get_set]
  | delitem h k' =>
    simp only [dictMethod]
    cases hg : Dict.get d k' with
    | none =>
      simp only [Option.isSome_none, Bool.false_eq_true, if_false]
      refine ⟨hd, fun k => ?_⟩
      split
      · rename_i he; subst he; exact hg
      · rfl
    | some v => simp [Dict.WF_del _ _ hd, Dict.get_del _ hd]
  | pop h k' dflt => simp [dictMethod, Dict.WF_del _ _ hd, Dict.get_del _ hd]
  | popitem h =>
    simp only [dictMethod]
    cases hg : d.getLast? with
    | none => simp [hd]
    | some p => simp [Dict.WF_del _ _ hd, Dict.get_del _ hd]
  | clear h => simp [dictMethod, Dict.WF, Dict.keys, Dict.get]
  | update h kw =>
    simp only [dictMethod]
    split
    · simp [hd]
    · simp [Dict.WF_update _ _ hd]
  | setdefault h k' v =>
    simp only [dictMethod]
    cases hg : Dict.get d k' with
    | none =>
      simp only [Dict.WF_set _ _ _ hd, Dict.get_set, true_and]
      intro k
      split
      · rename_i he; subst he; simp [hg]
      · rfl
    | some w =>
      simp only [hd, true_and]
      intro k
      split
      · rename_i he; subst he; simp [hg]
      · rfl
  | _ => exact ⟨hd, fun _ => rfl⟩

/-- C07: attribute access and item access agree on every name that is not reserved, for reading,
writing and deleting; and a reserved name cannot be assigned. -/
theorem C07_bunch_attr_item (reserved : List String) (s : Heap ν) (h : Nat) (n : String) (v : ν) :
    (n ∉ reserved →
      step reserved s (.getattr h n) = step reserved s (.getitem h (.str n)) ∧
      step reserved s (.setattr h n v) = step reserved s (.setitem h (.str n) v)) ∧
    step reserved s (.delattr h n) = step reserved s (.delitem h (.str n)) ∧
    (n ∈ reserved → ∀ p, step reserved s (.setattr h n v) = some p → p = (s, .attributeError)) := by
  refine ⟨?_, ?_, ?_⟩
  · intro hn
    simp only [step]
    cases dataOf s h with
    | none => simp
    | some p => simp [hn]
  · simp only [step]
  · intro hn p
    simp only [step]
    cases dataOf s h with
    | none => simp
    | some q => simp [hn]; exact fun e => e.symm

/-- C07: `bunchify` does not copy: the Bunch and the original dictionary are one object. -/
theorem C07_bunchify_shares (isid : String → Bool) (s s' : Heap ν) (cell h : Nat)
    (hb : bunchify isid s cell = some (s', .bunch h)) :
    s'.cells = s.cells ∧ s'.bunches[h]? = some cell := by
  unfold bunchify at hb
  split at hb
  · simp at hb
  · split at hb
    · simp at hb
    · split at hb
      · simp only [Option.some.injEq, Prod.mk.injEq, Ans.bunch.injEq] at hb
        obtain ⟨rfl, rfl⟩ := hb
        simp
      · simp at hb

/-- C07: after any sequence of operations, two Bunches compare equal exactly if they hold the same keys with the same
values, in whatever order. -/
theorem C07_bunch_eq (reserved : List String) (ops : List (Op ν)) (ho : ∀ o ∈ ops, callable o) (s : Heap ν)
    (as : List (Ans ν)) (hr : run reserved Bunch.empty ops = some (s, as)) (h o : Nat) (r r' : Nat) (d e : Data ν)
    (hd : dataOf s h = some (r, d)) (he : dataOf s o = some (r', e)) :
    ∃ b, step reserved s (.eq h o) = some (s, .bool b) ∧ (b = true ↔ ∀ k, Dict.get d k = Dict.get e k) := by
  have hw := run_WF (s := (Bunch.empty : Heap ν)) (by intro d hd; cases hd) ho hr
  refine ⟨_, by simp only [step, hd, he], dictEq_iff (hw d ?_) (hw e ?_)⟩
  · exact List.mem_of_getElem? (dataOf_some hd).2
  · exact List.mem_of_getElem? (dataOf_some he).2

/-- C07: no method of the mapping API can be shadowed by an assignment, and none of them is ever looked up in the
data. -/
theorem C07_bunch_api (reserved : List String) (hres : ∀ n ∈ ownNames, n ∈ reserved) (n : String) (hn : n ∈ apiNames)
    (s : Heap ν) (h r : Nat) (d : Data ν) (hd : dataOf s h = some (r, d)) (v : ν) :
    step reserved s (.setattr h n v) = some (s, .attributeError) ∧
    step reserved s (.getattr h n) = some (s, .method n) := by
  have hm : n ∈ reserved := by
    apply hres
    simp only [apiNames, List.mem_cons, List.not_mem_nil, or_false] at hn
    rcases hn with h | h | h | h | h | h | h | h | h | h | h | h | h <;> subst h <;> decide
  simp [step, hd, hm]

/-- C07, violated at one point: a Bunch that holds the key `self` (or a non-string key) cannot be
copied: `copy` raises TypeError instead of returning a copy.  (`b.self = 1; b.copy()`.) -/
theorem C07_bunch_copy_violated :
    (run ownNames Bunch.empty [.new [("x", 0)], .setattr 0 "self" 1, .getattr 0 "self", .copy 0]).map
      Prod.snd = some [.bunch 0, .unit, .val 1, .typeError] := by decide

/-- C07: … and that is the only obstacle: `copy` succeeds exactly when all keys are strings other
than `self`. -/
theorem C07_bunch_copy_partial (reserved : List String) (s : Heap ν) (h r : Nat) (d : Data ν)
    (hd : dataOf s h = some (r, d)) :
    (∃ s' h', step reserved s (.copy h) = some (s', .bunch h')) ↔
      ∀ p ∈ d, ∃ n, p.1 = .str n ∧ n ≠ "self" := by
  have hk : kwOk d = true ↔ ∀ p ∈ d, ∃ n, p.1 = .str n ∧ n ≠ "self" := by
    simp only [kwOk, List.all_eq_true]
    constructor
    · intro h p hp
      have := h p hp
      obtain ⟨k, v⟩ := p
      cases k with
      | str n => exact ⟨n, rfl, by simpa using this⟩
      | other n => simp at this
    · intro h p hp
      obtain ⟨n, h1, h2⟩ := h p hp
      obtain ⟨k, v⟩ := p
      simp only at h1
      subst h1
      simpa using h2
  rw [← hk]
  simp only [step, hd]
  by_cases hq : kwOk d = true <;> simp [hq]
end

-- Non-vacuity: two Bunches, a copy, independent changes, reserved names, popitem order.
example : (run ownNames Bunch.empty
    [.new [("a", 1), ("b", 2)], .copy 0, .setattr 0 "a" 10, .setitem 1 (.other 7) 3, .getattr 1 "a",
     .iter 1, .getattr 0 "pop", .setattr 0 "pop" 0, .popitem 0, .replace 1 0, .setitem 0 (.str "z") 9,
     .iter 1, .eq 0 1, .getattr 1 "zz"]).map Prod.snd =
    some [.bunch 0, .bunch 1, .unit, .unit, .val 1,
      .keys [.str "a", .str "b", .other 7], .method "pop", .attributeError, .pair (.str "b") 2,
      .unit, .unit, .keys [.str "a"], .bool false, .keyError] := by decide

-- Equality does not depend on the order of insertion; a missing key or a different value tells two Bunches apart.
example : (run ownNames Bunch.empty
    [.new [("a", 1), ("b", 2)], .new [("b", 2), ("a", 1)], .eq 0 1, .setitem 1 (.str "b") 3, .eq 0 1,
     .delitem 1 (.str "b"), .eq 0 1, .eq 1 0]).map Prod.snd =
    some [.bunch 0, .bunch 1, .bool true, .unit, .bool false, .unit, .bool false, .bool false] := by decide
example : ∀ o ∈ ([.new [("a", 1), ("b", 2)], .update 0 [("b", 3)]] : List (Op Nat)), callable o := by
  intro o h
  simp only [List.mem_cons, List.not_mem_nil, or_false] at h
  rcases h with rfl | rfl <;> (simp only [callable]; unfold Dict.WF; decide)
example : "pop" ∈ apiNames ∧ dataOf (alloc (Bunch.empty : Heap Nat) []).1 0 = some (0, []) := by decide
end Mcpyrate
