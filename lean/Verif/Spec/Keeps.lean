import Verif.Model.Expander
/-
User code that leaves something about the bindings or its own state as it was.
-/
namespace Mcpyrate.Expander
open Py

variable {υ α : Type}

/-- Provided that visits keep the value of `f`: user code that starts when `f` is `x` ends when `f` is `y`. -/
def Prog.Ends (f : World υ → α) : α → α → Prog υ → Prop
  | x, y, .ret _ => x = y
  | x, y, .raise _ => x = y
  | x, y, .visit _ _ k => ∀ r, (k r).Ends f x y
  | x, y, .withHook _ body k => ∃ z, body.Ends f x z ∧ ∀ r, (k r).Ends f z y
  | x, y, .get k => ∀ b w, f w = x → (k b w).Ends f x y
  | _, y, .put w k => k.Ends f (f w) y
  | x, y, .visitNew _ _ k => ∀ r, (k r).Ends f x y
  | _, _, .hang => True

/-- `f` survives the use of another expander. -/
def Local (f : World υ → α) : Prop :=
  ∀ w w' b, f w' = f { w with locals := b } → f { w' with locals := w.locals } = f w

/-- All user code leaves `f` as it was. -/
structure Env.Keeps (E : Env υ) (f : World υ → α) : Prop where
  macros : ∀ i a x, ((E.macros i).fn a).Ends f x x
  hooks : ∀ i t r n x, (E.hooks i t r n).Ends f x x

/-- The bindings. -/
def bindings (w : World υ) : Dict String Nat × Dict String Nat := (w.locals, w.globals)

end Mcpyrate.Expander
