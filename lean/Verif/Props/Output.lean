import Verif.Lemmas.Output
import Verif.Lemmas.ExpanderRuns
import Verif.Lemmas.ExpanderEffect
import Verif.Spec.ExpanderExample
/-
C51 the output of a macro is used verbatim.
-/
namespace Mcpyrate
open Py Expander

variable {υ : Type}

/-- C51: if an invocation has been expanded once, then the macro function behind it was called with the documented
arguments (`Invokes`, C21) and returned something acceptable.  If that was not `None`, then it now stands in place of
the invocation, with missing locations filled in from the invocation and with the right `ctx` fields, and otherwise the
same. -/
theorem C51_once (E : Env υ) (t c : Val) (k : String) (id : Nat) (a : MArgs) (s s' : St υ) (r : Val)
    (hw : WellFormed t) (hi : Invokes E s.world t k id a c) (h : Runs E .once t s (.ok r) s') :
    ∃ n s1 s2 ret v, s1.world = s.world ∧ run (visit E n) ((E.macros id).fn a) s1 = some (.ok ret, s2) ∧
      Accepted ret v ∧ (v = .none ∨ ∃ e p, Fitted (locOf t) v e ∧ Placed k a.synt e p ∧ r = done p) := by
  obtain ⟨n, b, r0, s0, hv, -, -, hr, hb⟩ := h.toVisit
  obtain ⟨v0, rfl, rfl⟩ := hr r rfl
  cases n with
  | zero => cases hv
  | succ n =>
    have hi' : Invokes E ({ s with recursive := b } : St υ).world t k id a c := hi
    obtain ⟨s1, s2, ret, v, h1, h2, h3, h4⟩ := visit_output hw hi' hv
    refine ⟨n, s1, s2, ret, v, h1, h2, h3, ?_⟩
    dsimp only at hb
    subst hb
    rcases h4 with rfl | ⟨e, h4, ⟨-, h5⟩ | ⟨h5, -⟩⟩
    · exact .inl rfl
    · exact .inr ⟨e, v0, h4, h5, rfl⟩
    · cases h5

/-- C51: if an invocation has been expanded recursively, then the same holds, except that the output has been expanded
further: what now stands in place of the invocation is the result of the visit of the output, with missing locations
filled in and the right `ctx` fields.  (An identifier macro that returns its own name is not expanded further; a further
expansion to `None` is an expression for coverage, C23.) -/
theorem C51_recursively (E : Env υ) (t c : Val) (k : String) (id : Nat) (a : MArgs) (s s' : St υ) (r : Val)
    (hw : WellFormed t) (hi : Invokes E s.world t k id a c) (h : Runs E .recursively t s (.ok r) s') :
    ∃ n s1 s2 ret v, s1.world = s.world ∧ run (visit E n) ((E.macros id).fn a) s1 = some (.ok ret, s2) ∧
      Accepted ret v ∧ (v = .none ∨ ∃ e, Fitted (locOf t) v e ∧
        ((a.synt = .name ∧ Itself k e ∧ r = done e) ∨
          ∃ e' s3 s4, (a.synt = .name → ¬ Itself k e) ∧ s3.recursive = true ∧ visit E n e s3 = some (.ok e', s4) ∧
            (e'.isNone = true ∨ (a.synt = .name ∧ r = e') ∨ (a.synt ≠ .name ∧ Placed k a.synt e' r)))) := by
  obtain ⟨n, b, r0, s0, hv, -, -, hr, hb⟩ := h.toVisit
  obtain ⟨v0, rfl, rfl⟩ := hr r rfl
  cases n with
  | zero => cases hv
  | succ n =>
    have hi' : Invokes E ({ s with recursive := b } : St υ).world t k id a c := hi
    obtain ⟨s1, s2, ret, v, h1, h2, h3, h4⟩ := visit_output hw hi' hv
    refine ⟨n, s1, s2, ret, v, h1, h2, h3, ?_⟩
    dsimp only at hb
    subst hb
    rcases h4 with rfl | ⟨e, h4, ⟨h5, -⟩ | ⟨-, h5⟩⟩
    · exact .inl rfl
    · cases h5
    · exact .inr ⟨e, h4, h5⟩

/-- `m[-x]` at line 3, with `x` from line 7, expands to `-x`; the minus gets the location of the invocation, `x` keeps its own. -/
example :
    let l : Loc := ⟨.int 3, .int 4, .int 3, .int 9⟩
    let l7 : Loc := ⟨.int 7, .int 0, .int 7, .int 1⟩
    let x : Val := .node (.py .Name) l7 [(.id, .str "x"), (.ctx, mk .Load [])]
    let t : Val := .node (.py .Subscript) l [(.value, name "m"), (.slice, mk .UnaryOp [(.op, mk .USub []), (.operand, x)]),
      (.ctx, mk .Load [])]
    let E := Ex.env
    Runs E .once t Ex.start (.ok (done (.node (.py .UnaryOp) l [(.op, mk .USub []), (.operand, x)])))
      { Ex.start with log := [⟨"m", 0, ⟨.expr, mk .UnaryOp [(.op, mk .USub []), (.operand, x)], some [], none, t⟩, 0, false, some 0⟩] } := by
  exact ⟨10, by decide +kernel⟩

end Mcpyrate
