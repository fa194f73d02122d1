import Verif.Model.Walkers
/-
Notions used to state the walker properties.
-/
namespace Mcpyrate.Walkers
open Py
variable {ν ρ ε : Type}

/-- User code that never empties a state object: mutations keep a nonempty state nonempty (for
example, they only assign attributes), and `self.state` is only rebound to nonempty states. -/
def Prog.KeepsNonempty : Prog ν ρ ε → Prop
  | .ret _ => True
  | .raise _ => True
  | .read k => ∀ s, (k s).KeepsNonempty
  | .write f k => (∀ s, s ≠ [] → f s ≠ []) ∧ k.KeepsNonempty
  | .rebind s k => s ≠ [] ∧ k.KeepsNonempty
  | .withstate _ _ k => k.KeepsNonempty
  | .visit _ k => ∀ r, (k r).KeepsNonempty
  | .collect _ k => k.KeepsNonempty

/-- A walker in a usable condition: there is a current state, references are valid, no state object
is empty. -/
structure Ok (w : W ν) : Prop where
  stack_ne : w.stack ≠ []
  stack_valid : ∀ r ∈ w.stack, r < w.heap.length
  overrides_valid : ∀ t r, (t, r) ∈ w.overrides → r < w.heap.length
  nonempty : ∀ s ∈ w.heap, s ≠ []

/-- The current state object. -/
def current (w : W ν) : Option Nat := w.stack.head?

/-- State object `r` is waiting for some subtree. -/
def Pending (w : W ν) (r : Nat) : Prop := ∃ t, (t, r) ∈ w.overrides

end Mcpyrate.Walkers
