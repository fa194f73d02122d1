import Verif.Model.Expander
/-
Model of the global postprocessors, core.py:27 and 360-419, and of `expand_macros`, expander.py:563-581.
-/
namespace Mcpyrate.Postprocess
open Py Expander

/-- Registering and removing a postprocessor; functions are identified by a number (comparison of
functions is by identity, or by `==` for other callable objects). -/
inductive Op where
  | add (f : Nat)
  | remove (f : Nat)
  deriving DecidableEq, Repr

/-- `add_postprocessor`, core.py:409-410; `remove_postprocessor`, core.py:418-419. -/
def step (reg : List Nat) : Op → List Nat
  | .add f => if f ∈ reg then reg else reg ++ [f]
  | .remove f => if f ∈ reg then reg.erase f else reg

/-- The value of `global_postprocessors` (core.py:27) after a history. -/
def registry (ops : List Op) : List Nat := ops.foldl step []

/-- The state that postprocessors can change: the registry, and anything else. -/
structure PSt (υ : Type) where
  registry : List Nat
  user : υ
  deriving DecidableEq

variable {υ : Type}

/-- Postprocessors: arbitrary code that takes and returns a tree. -/
abbrev Hooks (υ : Type) := Nat → Val → M Exc (PSt υ) Val

/-- `for custom_postprocessor in global_postprocessors: tree = custom_postprocessor(tree)`,
core.py:377-378.  Iteration over a list is by index and looks at the list as it is at the time. -/
def runHooks (H : Hooks υ) : Nat → Nat → Val → M Exc (PSt υ) Val
  | 0, _, _ => M.diverge
  | n + 1, i, t => do
    let s ← M.get
    match s.registry[i]? with
    | none => return t
    | some f => do
      let t' ← H f t
      runHooks H n (i + 1) t'

/-- `global_postprocess(tree)`, core.py:360-380.  `p` tells which classes are subclasses of
`MacroExpanderMarker`.  `fix_ctx` is the one for trees without sharing. -/
def globalPostprocess (p : Cls → Bool) (H : Hooks υ) (n : Nat) (t : Val) : M Exc (PSt υ) Val := do
  let t1 ← M.ofExcept (liftErr (Markers.deleteMarkers p t))
  let t2 ← M.ofExcept (liftErr (FixCtx.fixCtx t1))
  runHooks H n 0 t2

end Mcpyrate.Postprocess
