import Verif.Model.Postprocess

/-
Notions used in the statements of Props/Postprocess.lean.
-/
namespace Mcpyrate
open Py Expander Postprocess
variable {υ : Type}

/-- After this history, `f` has been added and not removed since. -/
def Registered (ops : List Op) (f : Nat) : Prop :=
  ∃ pre post, ops = pre ++ .add f :: post ∧ Op.remove f ∉ post

/-- `f` comes before `g` in the list. -/
def Before (l : List Nat) (f g : Nat) : Prop := ∃ a b c, l = a ++ f :: b ++ g :: c

/-- `f` has been registered since some time at which `g` was not registered (yet, or any more). -/
def Earlier (ops : List Op) (f g : Nat) : Prop :=
  ∃ pre post, ops = pre ++ post ∧ Registered pre f ∧ Op.remove f ∉ post ∧ ¬ Registered pre g

/-- The postprocessors `fs`, one after the other: each gets what the one before it returned; an
exception stops the chain. -/
inductive Chain (H : Hooks υ) : List Nat → Val → PSt υ → Except Exc Val → PSt υ → Prop
  | nil (t s) : Chain H [] t s (.ok t) s
  | cons {f fs t s t1 s1 r s2} : H f t s = some (.ok t1, s1) → Chain H fs t1 s1 r s2 →
      Chain H (f :: fs) t s r s2
  | error {f fs t s e s1} : H f t s = some (.error e, s1) → Chain H (f :: fs) t s (.error e) s1

/-- Postprocessors do not change the registry. -/
def KeepRegistry (H : Hooks υ) : Prop :=
  ∀ f t s r s', H f t s = some (r, s') → s'.registry = s.registry

end Mcpyrate
