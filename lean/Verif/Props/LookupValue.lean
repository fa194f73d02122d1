import Verif.Lemmas.LookupValue
/-
C38.  Full statement: `lookup_value(key)` always returns the unpickled value of that key, whatever was looked up before and
whichever objects have been garbage-collected in between.

This is false: the cache key contains the `id` of the frozen value, and the cache does not keep that object alive; when
another `bytes` object gets the same `id`, the old value is returned for it (`C38_reuse_violated`).  It is true as long as the
frozen values that have been looked up stay alive, as those in the code of a loaded module do (`C38_alive_partial`), or if
no `id` is reused for other data (`C38_no_reuse_partial`).
-/
namespace Mcpyrate
open Py LookupValue

/-- After any history that does not free objects that have been looked up: a lookup gives the unpickled value (or the error
of unpickling it; ValueError when there is no value yet). -/
theorem C38_alive_partial (unpickle : List Nat → Except Err Obj) (es : List Event) (s s' : State) (n : String) (x : Option Nat)
    (r : Except Err Obj) (hk : keepsAlive [] es = true) (h : run unpickle .start es = some s)
    (hr : lookupValue unpickle s n x = some (r, s')) : r = expected unpickle (contents s x) :=
  (lookup_right (alive_run es [] .start s ⟨fun _ _ _ h => (by cases h), List.nodup_nil,
    fun _ _ _ h => (by cases h), fun _ h => (by cases h)⟩ hk h) hr).1

/-- Unpickling for the examples. -/
def LookupValue.load : List Nat → Except Err Obj
  | [n] => .ok (.ext n)
  | _ => .error .valueError

/-- Objects that were not looked up are freed, and their `id` is used again. -/
def LookupValue.exAlive : List Event :=
  [.alloc 1 [5], .alloc 2 [6], .lookup "a" (some 1), .free 2, .alloc 2 [7], .lookup "b" (some 2), .lookup "a" none,
    .alloc 3 []]

example : keepsAlive [] exAlive = true := by decide +kernel
example : (run load .start exAlive).bind (fun s => (lookupValue load s "b" (some 2)).map (·.1)) = some (.ok (.ext 7)) := by
  decide +kernel

/-- The same for any history in which no `id` is used for objects with different contents. -/
theorem C38_no_reuse_partial (unpickle : List Nat → Except Err Obj) (es : List Event) (s s' : State) (n : String)
    (x : Option Nat) (r : Except Err Obj) (hk : noReuse [] es = true) (h : run unpickle .start es = some s)
    (hr : lookupValue unpickle s n x = some (r, s')) : r = expected unpickle (contents s x) :=
  (lookup_right (reuse_run es [] .start s ⟨List.nodup_nil, fun _ _ h => (by cases h),
    fun _ _ _ h => (by cases h), fun _ _ _ h => (by cases h)⟩ hk h) hr).1

example : noReuse [] [.alloc 1 [5], .lookup "a" (some 1), .free 1, .alloc 1 [5], .alloc 2 [6]] = true := by decide +kernel

/-- A second lookup right after a successful one gives the same value and does not change anything, whatever the state. -/
theorem C38_again (unpickle : List Nat → Except Err Obj) (s s' : State) (n : String) (x : Option Nat) (v : Obj)
    (h : lookupValue unpickle s n x = some (.ok v, s')) : lookupValue unpickle s' n x = some (.ok v, s') := by
  unfold lookupValue at h
  cases x with
  | none => cases h
  | some i =>
    dsimp only at h
    cases hb : s.heap.get i with
    | none => rw [hb] at h; cases h
    | some b =>
      rw [hb] at h
      dsimp only at h
      cases hv : s.cache.get (n, i) with
      | some w => rw [hv] at h; cases h; simp only [lookupValue, hb, hv]
      | none =>
        rw [hv] at h
        dsimp only at h
        cases hu : unpickle b with
        | error e => rw [hu] at h; cases h
        | ok w =>
          rw [hu] at h
          cases h
          have : (s.cache.set (n, i) v).get (n, i) = some v := by rw [Dict.get_set, if_pos rfl]
          simp only [lookupValue, hb, this]

example : (lookupValue load ⟨[(1, [5])], []⟩ "a" (some 1)).map (·.1) = some (.ok (.ext 5)) := by decide +kernel

/-- A wrong value after the `id` of a garbage-collected key is reused: the value of the first capture is returned for the
second one. -/
theorem C38_reuse_violated : ∃ (unpickle : List Nat → Except Err Obj) (es : List Event) (s : State) (n : String) (x : Option Nat)
    (r : Except Err Obj) (s' : State), run unpickle .start es = some s ∧ lookupValue unpickle s n x = some (r, s') ∧
      r = .ok (.ext 5) ∧ expected unpickle (contents s x) = .ok (.ext 6) :=
  ⟨load, [.alloc 1 [5], .lookup "x" (some 1), .free 1, .alloc 1 [6]], _, "x", some 1, _, _, rfl, rfl, rfl, rfl⟩

end Mcpyrate
