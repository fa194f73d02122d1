import Verif.Spec.Fixpoint
import Verif.Model.ExpandFirst
/-
Notions for the statements about `expand_first`.
-/
namespace Mcpyrate.ExpandFirst
open Py Expander

variable {υ : Type}

/-- `with f[args]: body`, without as-part. -/
def blockArgs (args : List Val) (body invocation : Val) : MArgs := ⟨.block, body, some args, some .none, invocation⟩

/-- The macro function that a bare name refers to. -/
def macroOf (w : World υ) (t : Val) : Option Nat :=
  if t.isK .Name then
    match t.get? .id with
    | some (.str k) => isbound w k
    | _ => none
  else none

/-- State `s` when another expander is used: in recursive mode, without debug hook, with the bindings of `w`. -/
def other (s : St υ) (w : World υ) : St υ := { s with recursive := true, hook := none, world := w }

/-- Back to the expander of state `s`, after the use of another expander ended in state `s1`. -/
def back (s s1 : St υ) : St υ :=
  { s1 with recursive := s.recursive, hook := s.hook, world := { s1.world with locals := s.world.locals } }

/-- What a name means to the expander that `expand_first` uses: the macros with these functions under all their names,
and the global bindings. -/
def Sees (w : World υ) (fs : List Nat) (k : String) (f : Nat) : Prop :=
  (isbound w k = some f ∧ f ∈ fs) ∨ ((∀ g ∈ fs, isbound w k ≠ some g) ∧ Dict.get w.globals k = some f)

/-- The bindings of that expander. -/
structure Second (w w2 : World υ) (fs : List Nat) : Prop where
  globals : w2.globals = w.globals
  user : w2.user = w.user
  bound : ∀ k f, isbound w2 k = some f ↔ Sees w fs k f

/-- The call of `expand_first` finishes, in state `s'`. -/
def Calls (E : Env υ) (a : MArgs) (s : St υ) (r : Except Exc Ret) (s' : St υ) : Prop :=
  ∃ n, run (visit E n) (expandFirst a) s = some (r, s')

/-- `u` was the invocation of an application, not made from inside of a macro function that is running, of one of the
functions `fs`. -/
def ExpandedBy (fs : List Nat) (s s' : St υ) (u : Val) : Prop :=
  ∃ e ∈ fresh s s', e.depth = s.depth ∧ e.margs.invocation = u ∧ e.fn ∈ fs

end Mcpyrate.ExpandFirst
