import Verif.Props.Captures
import Verif.Props.LookupValue
/-
C36, continued: "looking up a captured value yields the value that was captured", with the cache of `lookup_value` (C38).

It does as long as no frozen value that was looked up has been freed, or no `id` has been used for different frozen values
(`C36_alive_partial`, `C36_noReuse_partial`); otherwise the value of another capture may be returned
(`C36_lookup_violated`).
-/
namespace Mcpyrate
open Py Quotes
variable {σ : Type}

/-- After a history in which no value that was looked up is freed: what `is_captured_value` finds in a capture, looked up,
is the value that was captured, if it can be pickled without loss. -/
theorem C36_alive_partial (H : Host σ) (v code : Obj) (name : String) (h : captureValue H v (.str name) = .ok code)
    (hp : ∀ b, H.pickle v = .ok b → H.unpickle b = .ok v) (es : List LookupValue.Event) (s : LookupValue.State)
    (hk : LookupValue.keepsAlive [] es = true) (hs : LookupValue.run H.unpickle .start es = some s) :
    ∃ frozen, isCapturedValue code = .ok (some (name, some frozen)) ∧ ∀ i, s.heap.get i = some frozen →
      ∃ s', LookupValue.lookupValue H.unpickle s name (some i) = some (.ok v, s') := by
  obtain ⟨b, h1, h2, -⟩ := C36_value H v code name h
  refine ⟨b, h2, fun i hi => ?_⟩
  have : ∃ r s', LookupValue.lookupValue H.unpickle s name (some i) = some (r, s') := by
    simp only [LookupValue.lookupValue, hi]
    split
    · exact ⟨_, _, rfl⟩
    · split <;> exact ⟨_, _, rfl⟩
  obtain ⟨r, s', hr⟩ := this
  have e := C38_alive_partial H.unpickle es s s' name (some i) r hk hs hr
  simp only [LookupValue.contents, hi, LookupValue.expected, hp b h1] at e
  exact ⟨s', by rw [hr, e]⟩

/-- The same after a history in which no `id` is used for different values. -/
theorem C36_noReuse_partial (H : Host σ) (v code : Obj) (name : String) (h : captureValue H v (.str name) = .ok code)
    (hp : ∀ b, H.pickle v = .ok b → H.unpickle b = .ok v) (es : List LookupValue.Event) (s : LookupValue.State)
    (hk : LookupValue.noReuse [] es = true) (hs : LookupValue.run H.unpickle .start es = some s) :
    ∃ frozen, isCapturedValue code = .ok (some (name, some frozen)) ∧ ∀ i, s.heap.get i = some frozen →
      ∃ s', LookupValue.lookupValue H.unpickle s name (some i) = some (.ok v, s') := by
  obtain ⟨b, h1, h2, -⟩ := C36_value H v code name h
  refine ⟨b, h2, fun i hi => ?_⟩
  have : ∃ r s', LookupValue.lookupValue H.unpickle s name (some i) = some (r, s') := by
    simp only [LookupValue.lookupValue, hi]
    split
    · exact ⟨_, _, rfl⟩
    · split <;> exact ⟨_, _, rfl⟩
  obtain ⟨r, s', hr⟩ := this
  have e := C38_no_reuse_partial H.unpickle es s s' name (some i) r hk hs hr
  simp only [LookupValue.contents, hi, LookupValue.expected, hp b h1] at e
  exact ⟨s', by rw [hr, e]⟩

/-- A host for the examples: objects are pickled as their numbers. -/
def Quotes.Ex.pickler : Host Unit := { Ex.host with
  pickle := fun v => match v with | .ext i => .ok [i] | _ => .error .typeError
  unpickle := LookupValue.load }

example : ∃ code, captureValue Ex.pickler (.ext 6) (.str "x") = .ok code ∧
    ∀ b, Ex.pickler.pickle (.ext 6) = .ok b → Ex.pickler.unpickle b = .ok (.ext 6) :=
  ⟨_, rfl, fun b h => by cases h; rfl⟩

example : LookupValue.keepsAlive [] [.alloc 1 [5], .lookup "x" (some 1), .alloc 2 [6]] = true ∧
    ∃ s, LookupValue.run LookupValue.load .start [.alloc 1 [5], .lookup "x" (some 1), .alloc 2 [6]] = some s ∧
      s.heap.get 2 = some [6] := ⟨rfl, _, rfl, rfl⟩

/-- Two values that are pickled without loss, captured under the same name; the second one, looked up after the first one
has been looked up and its frozen value freed, is the first one. -/
theorem C36_lookup_violated : ∃ (H : Host Unit) (v w codeV codeW : Obj) (name : String) (i : Nat) (b c : List Nat) (s s' : LookupValue.State),
    (∀ u ∈ [v, w], ∀ b, H.pickle u = .ok b → H.unpickle b = .ok u) ∧ v ≠ w ∧
    captureValue H v (.str name) = .ok codeV ∧ captureValue H w (.str name) = .ok codeW ∧
    isCapturedValue codeV = .ok (some (name, some b)) ∧ isCapturedValue codeW = .ok (some (name, some c)) ∧
    LookupValue.run H.unpickle .start [.alloc i b, .lookup name (some i), .free i, .alloc i c] = some s ∧
    LookupValue.lookupValue H.unpickle s name (some i) = some (.ok v, s') :=
  ⟨Ex.pickler, .ext 5, .ext 6, _, _, "x", 1, [5], [6], _, _, by
    intro u hu b hb
    simp only [List.mem_cons, List.not_mem_nil, or_false] at hu
    rcases hu with rfl | rfl <;> (cases hb; rfl), by simp, rfl, rfl, by decide +kernel, by decide +kernel, rfl, rfl⟩

end Mcpyrate
