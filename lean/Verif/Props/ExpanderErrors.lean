import Verif.Lemmas.ExpanderErrors
import Verif.Lemmas.Output
import Verif.Lemmas.ExpanderRuns
import Verif.Spec.ExpanderExample
/-
C20 errors in macros surface as one telescoped report.
-/
namespace Mcpyrate
open Py Expander

variable {υ : Type}

/-- C20: whatever the macros do (including handling and raising exceptions), an exception that leaves
the expander is a `MacroApplicationError` with a cause, an error of Python or of the expander itself
outside of any macro function, or not an `Exception` (such as KeyboardInterrupt).  So an exception
raised by a macro function never arrives bare. -/
theorem C20_surface (E : Env υ) (mode : Mode) (t : Val) (s s' : St υ) (e : Exc)
    (h : Runs E mode t s (.error e) s') :
    Interrupt e ∨ (∃ x, e = .py x) ∨ ∃ msg cause, e = .app msg cause := by
  obtain ⟨n, h⟩ := h
  exact (visitMode_pq surfaces_rel (visit_surfaces E n) mode t s _ _ h).imp_left interrupt_iff.mp

/-- C20: if macros and debug hooks do not handle exceptions, then an exception that leaves the
expander is the report (`telescope`) of its cause: the message lists the use sites of exactly those
macro applications that were running (`Unwound`), outermost first, under one header; the cause was
raised during the innermost of them, by the macro function or a debug hook, or because of its return
value, or by the expander itself (`Origin`).  The other possibilities are an error of the expander
itself outside of any macro function, and exceptions that are not an `Exception`.

`hloc`: the first line of a formatted location (which contains the file name and a colon) is not the
header line. -/
theorem C20_telescope (E : Env υ) (hE : E.Plain) (hloc : ∀ t, (E.loc t).head? ≠ reportHeader.head?)
    (mode : Mode) (t : Val) (s s' : St υ) (e : Exc) (h : Runs E mode t s (.error e) s') :
    Interrupt e ∨ (∃ x, e = .py x) ∨
    ∃ chain a cause, Unwound s.depth (fresh s s') chain ∧ chain.getLast? = some a ∧ Origin E a cause ∧
      e = telescope (chain.map fun x => useSite E x.margs x.name) cause := by
  obtain ⟨n, h⟩ := h
  rw [← site_eq]
  refine Or.imp_left interrupt_iff.mp ?_
  exact (visitMode_pq (qf_rel E) (visit_fails hE hloc n) mode t s _ _ h).2 e rfl

/-- C20, one step: an error `e` raised while a bound macro is applied. -/
theorem C20_step (E : Env υ) (vis : Val → X υ Val) (name : String) (a : MArgs) (s s' : St υ) (e : Exc)
    (id : Nat) (hb : isbound s.world name = some id) (hx : ¬ Interrupt e)
    (h : applyMacro E vis id name a s = some (.error e, s')) :
    ∃ msg cause, expand E vis name a s = some (.error (.app msg cause), s') ∧
      ((∀ m c, e ≠ .app m c) → msg = useSite E a name ∧ cause = e) ∧
      (∀ m c, e = .app m c → cause = c ∧ reportHeader ++ useSite E a name <+: msg) := by
  rw [← site_eq]
  have hx' : e.isException = true := by
    cases he : e.isException with
    | true => rfl
    | false => exact absurd (interrupt_iff.mp he) hx
  have h1 : expandTry E vis name a s = some (.error e, s') := by
    unfold expandTry
    rw [run_get, hb]
    simp only [Bind.bind, M.bind, h]
  have h2 : expand E vis name a s = some (.error (report E a name e), s') := by
    unfold expand
    simp only [Bind.bind, M.bind, M.attempt, h1, M.throw, hx', if_true]
  rw [h2]
  unfold report
  split
  · rename_i m c
    refine ⟨_, _, rfl, fun h => absurd rfl (h m c), ?_⟩
    rintro m' c' ⟨⟩
    exact ⟨rfl, by simp [← header_eq]⟩
  · rename_i hn
    exact ⟨_, _, rfl, fun _ => ⟨rfl, rfl⟩, fun m c h => absurd h (hn m c)⟩

/-- C20: an exception that is not an `Exception` passes unchanged. -/
theorem C20_interrupt (E : Env υ) (vis : Val → X υ Val) (name : String) (a : MArgs) (s s' : St υ) (e : Exc)
    (id : Nat) (hb : isbound s.world name = some id) (hx : Interrupt e)
    (h : applyMacro E vis id name a s = some (.error e, s')) : expand E vis name a s = some (.error e, s') := by
  have h1 : expandTry E vis name a s = some (.error e, s') := by
    unfold expandTry
    rw [run_get, hb]
    simp only [Bind.bind, M.bind, h]
  unfold expand
  simp only [Bind.bind, M.bind, M.attempt, h1, M.throw, interrupt_iff.mpr hx, Bool.false_eq_true, if_false]

/-- C20: a macro that returns something unacceptable causes a `MacroApplicationError` with a cause
(that reports the return value), at its use site; one that returns something acceptable does not, and
expansion goes on with what was returned. -/
theorem C20_return (E : Env υ) (vis : Val → X υ Val) (name : String) (a : MArgs) (s s' : St υ)
    (id : Nat) (hb : isbound s.world name = some id) (ret : Ret)
    (h : applyMacro E vis id name a s = some (.ok ret, s')) :
    ((∀ v, ¬ Accepted ret v) → expand E vis name a s =
      some (.error (.app (useSite E a name) (.app0 (E.loc a.invocation ++ ["bad return value"]))), s')) ∧
    (∀ v, Accepted ret v → expand E vis name a s = visitExpansion vis v a.invocation s') := by
  rw [← site_eq]
  have h1 : expandTry E vis name a s = match checkRet ret with
      | some v => some (.ok v, s')
      | none => some (.error (.app0 (E.loc a.invocation ++ ["bad return value"])), s') := by
    unfold expandTry
    rw [run_get, hb]
    simp only [Bind.bind, M.bind, h]
    cases checkRet ret <;> rfl
  constructor
  · intro hr
    cases hc : checkRet ret with
    | some v => exact absurd ((checkRet_iff _ _).mp hc) (hr v)
    | none =>
      unfold expand
      simp only [Bind.bind, M.bind, M.attempt, h1, hc, M.throw]
      rfl
  · intro v hr
    have hc := (checkRet_iff _ _).mpr hr
    unfold expand
    simp only [Bind.bind, M.bind, M.attempt, h1, hc]

/-! ### Concrete cases -/
section
open Expander.Ex

/-- The macros of the example do not handle exceptions. -/
theorem env_plain : env.Plain := by
  refine ⟨fun i a => ?_, fun _ _ _ _ => trivial⟩
  unfold env
  dsimp only
  split <;> simp [identity, toM, nameIdentity, raises, param, once, delete, nameToM, now, Prog.Plain]

-- `t[t[e[x]]]`: three nested applications, one report
example : (visitAs env 20 .recursively (sub (name "t") (sub (name "t") (sub (name "e") (name "x")))) start).map
      (fun p => (p.1, p.2.log.map fun e => (e.name, e.depth)))
    = some (.error (.app (reportHeader ++ ["a.py:1: x", "in expr macro invocation for 't'",
          "a.py:1: x", "in expr macro invocation for 't'", "a.py:1: x", "in expr macro invocation for 'e'"])
          (.user 7 true)), [("t", 0), ("t", 1), ("e", 2)]) := by decide +kernel

-- the hypothesis of C20_telescope on locations
example : ∀ t, (env.loc t).head? ≠ reportHeader.head? := by
  intro t; show some "a.py:1: x" ≠ _; decide

end
end Mcpyrate
