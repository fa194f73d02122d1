import Verif.Spec.Invocation
import Verif.Spec.Expander
/-
The outermost macro invocations of a tree, and their expansion.
-/
namespace Mcpyrate.Expander
open Py

variable {υ : Type}

/-- `u` occurs in `t`, and no node above it is a macro invocation or marked as done; nor is `u` itself marked. -/
inductive Outermost (E : Env υ) (w : World υ) : Val → Val → Prop
  | refl (t) : isDone t = false → Outermost E w t t
  | step {t c u} : isDone t = false → ¬ Invocation E w t → c ∈ childNodes t → Outermost E w c u → Outermost E w t u

/-- The application of the macro `id`, bound as `k`, to `a`, not from inside of a macro function that is
running, between two states. -/
def Applied (k : String) (id : Nat) (a : MArgs) (s s' : St υ) : Prop :=
  ∃ e ∈ fresh s s', e.depth = s.depth ∧ e.name = k ∧ e.fn = id ∧ e.margs = a

end Mcpyrate.Expander
