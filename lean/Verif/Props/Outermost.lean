import Verif.Lemmas.ExpanderComplete
import Verif.Spec.ExpanderExample
/-
C17 `visit_once` expands all outermost invocations (C17_one_pass is that it expands nothing else, and nothing twice).
-/
namespace Mcpyrate
open Py Expander

variable {υ : Type}

/-- C17: a visit, in any mode, that succeeds has expanded every invocation that is not inside of another one, or of a part
marked as done: with the macro it names, with its arguments.  The macros must leave the bindings as they are; else a later
invocation may be none any more. -/
theorem C17_outermost (E : Env υ) (mode : Mode) (t r : Val) (s s' : St υ) (hE : E.Keeps bindings) (ht : t.isTree = true)
    (hg : Grammatical t) (h : Runs E mode t s (.ok r) s') (u c : Val) (k : String) (id : Nat) (a : MArgs)
    (ho : Outermost E s.world t u) (hi : Invokes E s.world u k id a c) : Applied k id a s s' := by
  obtain ⟨n, b, r0, s0, hv, rfl, -, hr, -⟩ := h.toVisit
  obtain ⟨v0, rfl, -⟩ := hr r rfl
  exact visit_complete hE n t { s with recursive := b } s0 v0 ht hg rfl hv u k id a c ho hi

/-- `[m[x], m[r[y]]]`: the first and the second `m` are outermost. -/
example : Grammatical (.list [Ex.sub (name "m") (name "x"), Ex.sub (name "m") (Ex.sub (name "r") (name "y"))]) ∧
    Outermost Ex.env Ex.start.world
      (.list [Ex.sub (name "m") (name "x"), Ex.sub (name "m") (Ex.sub (name "r") (name "y"))])
      (Ex.sub (name "m") (Ex.sub (name "r") (name "y"))) ∧
    Invokes Ex.env Ex.start.world (Ex.sub (name "m") (Ex.sub (name "r") (name "y"))) "m" 0
      ⟨.expr, Ex.sub (name "r") (name "y"), some [], none, Ex.sub (name "m") (Ex.sub (name "r") (name "y"))⟩ (name "m") ∧
    (visitAs Ex.env 20 .once (.list [Ex.sub (name "m") (name "x"), Ex.sub (name "m") (Ex.sub (name "r") (name "y"))])
      Ex.start).map (fun p => (p.1, p.2.log.map fun e => (e.name, e.fn, e.depth, e.margs.tree))) =
      some (.ok (done (.list [name "x", Ex.sub (name "r") (name "y")])),
        [("m", 0, 0, name "x"), ("m", 0, 0, Ex.sub (name "r") (name "y"))]) := by
  refine ⟨grammatical_of (by decide +kernel), .step rfl ?_ (by decide +kernel) (.refl _ rfl),
    .expr rfl rfl (.plain rfl rfl) ⟨by decide, rfl, .inl rfl⟩ rfl, by decide +kernel⟩
  intro h
  cases h with
  | expr hk => cases hk
  | block hk => cases hk
  | decorator hk => rcases hk with hk | hk <;> cases hk
  | name hk => cases hk

end Mcpyrate
