import Verif.Model.StepExpansion
import Verif.Spec.Collector
import Verif.Spec.Expander
import Verif.Spec.Keeps
/-
Specification for `step_expansion`.
-/
namespace Mcpyrate.StepExpansion
open Py Expander Collector

variable {σ : Type}

/-- Stepping through the expansion of `t`, after `n` steps, in state `s`: the trees shown after each further step, how it
ends (with an exception; or with a tree and the number of steps), and the state then.

In each step, the tree is expanded once, and the result is shown. -/
inductive Stepping (E : Env (User σ)) (dump : Bool) (level : Nat) :
    Nat → Val → Expander.St (User σ) → List Val → Except Exc (Val × Nat) → Expander.St (User σ) → Prop
  /-- The collector reports nothing. -/
  | finished {n t s} : Collects E s.world t (.ok ()) [] → Stepping E dump level n t s [] (.ok (t, n)) s
  /-- The collector raises an exception. -/
  | unreadable {n t s e l} : Collects E s.world t (.error e) l → Stepping E dump level n t s [] (.error e) s
  /-- The expansion raises an exception. -/
  | fails {n t s l e s1} : Collects E s.world t (.ok ()) l → l ≠ [] →
      Runs E .once t { s with world := setStep (n + 1) s.world } (.error e) s1 → Stepping E dump level n t s [] (.error e) s1
  /-- The tree cannot be printed. -/
  | unprintable {n t s l t' s1} : Collects E s.world t (.ok ()) l → l ≠ [] →
      Runs E .once t { s with world := setStep (n + 1) s.world } (.ok (done t')) s1 → formats dump (.val t') = false →
      Stepping E dump level n t s [] (.error (.py .typeError)) s1
  | step {n t s l t' s1 ts o s2} : Collects E s.world t (.ok ()) l → l ≠ [] →
      Runs E .once t { s with world := setStep (n + 1) s.world } (.ok (done t')) s1 → formats dump (.val t') = true →
      Stepping E dump level (n + 1) t' { s1 with world := emit ⟨level, dump, .after (n + 1) t'⟩ s1.world } ts o s2 →
      Stepping E dump level n t s (t' :: ts) o s2

/-- The nesting level of a `step_expansion` that is called in state `s`. -/
def levelOf (s : Expander.St (User σ)) : Nat := s.world.user.frames.length + 1

/-- The state in which a `step_expansion` called in state `s` starts stepping. -/
def opened (hook : Nat → Nat) (dump detailed : Bool) (t : Val) (s : Expander.St (User σ)) : Expander.St (User σ) :=
  { s with
    world := emit ⟨levelOf s, dump, .before t⟩ (push dump s.world)
    hook := if detailed then some (hook (levelOf s)) else s.hook }

/-- The outcome of a `step_expansion` that was called in state `s`, when the stepping has ended in state `s1` with
outcome `o`. -/
def closed (dump : Bool) (s : Expander.St (User σ)) (o : Except Exc (Val × Nat)) (s1 : Expander.St (User σ)) :
    Except Exc Ret × Expander.St (User σ) :=
  match o with
  | .ok (t, n) => (.ok (.val t), { s1 with world := pop (emit ⟨levelOf s, dump, .complete n⟩ s1.world), hook := s.hook })
  | .error e => (.error e, { s1 with world := pop s1.world, hook := s.hook })

/-- A message about a whole tree, not about a single macro invocation. -/
def Event.isProgress : Event → Bool
  | .applying .. | .result .. => false
  | _ => true

/-- The messages about whole trees, of `step_expansion`s up to the given level. -/
def progress (level : Nat) (w : W σ) : List Line :=
  w.user.stderr.filter fun x => x.event.isProgress && decide (x.level ≤ level)

/-- The running `step_expansion`s, and their messages about whole trees. -/
def shown (w : W σ) : List Frame × List Line := (w.user.frames, progress w.user.frames.length w)

/-- All user code is either `step_expansion` (or its debug hooks), or does not touch its messages and variables. -/
structure Silent (E : Env (User σ)) : Prop where
  macros : ∀ i, (∀ a x, ((E.macros i).fn a).Ends shown x x) ∨
    ∃ E0 hook m, (E.macros i).fn = stepExpansion E0 hook m
  hooks : ∀ i, (∀ t r n x, (E.hooks i t r n).Ends shown x x) ∨ ∃ level, E.hooks i = printStep level

/-- The messages for the trees `ts`, after step `n`, `n + 1`, … -/
def stepLines (level : Nat) (dump : Bool) : Nat → List Val → List Line
  | _, [] => []
  | n, t :: ts => ⟨level, dump, .after n t⟩ :: stepLines level dump (n + 1) ts

/-- The last message. -/
def lastLines (level : Nat) (dump : Bool) : Except Exc (Val × Nat) → List Line
  | .ok (_, n) => [⟨level, dump, .complete n⟩]
  | .error _ => []

end Mcpyrate.StepExpansion
