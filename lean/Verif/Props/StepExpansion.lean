import Verif.Lemmas.StepExpansionShown
import Verif.Spec.StepExpansionExample
import Verif.Props.Collector
/-
C50. Expansion stepping reaches the fully expanded result.

Full statement: Stepping the expansion (one expand-once pass at a time until the collector reports nothing) ends in a tree
in which no invocation is left, and shows every intermediate step.

Proved, for `step_expansion` run in any environment of macros: it does exactly one expand-once pass per step, on the tree of
the previous step, until the collector reports nothing (`C50_steps`, `C50_finishes`; with all the ways in which an exception
can end it); when it returns, there are no invocations left in the returned tree, provided that this has nodes where Python's
grammar has them (`C50_nothing_left`), and the messages about whole trees are those for the tree before expansion, the
result of each pass, and the number of passes (`C50_shown`), in the same order.

It does not always end in such a tree: it fails if the collector raises (C24), although the expander accepts the tree
(`C50_call_violated`); and with the argument "dump" it fails if nothing is left of the tree (`C50_dump_violated`).
-/
namespace Mcpyrate
open Py Expander Collector StepExpansion

variable {σ : Type}

/-- C50: the arguments have to be among the four strings; `"dump"` and `"detailed"` count if they are given
anywhere, even together with their opposites. -/
theorem C50_arguments (args : List Val) (dump detailed : Bool)
    (h : parseArgs args (false, false) = .ok (dump, detailed)) :
    (∀ a ∈ args, a.isK .Constant = true ∧ ∃ x, a.get? .value = some (.str x) ∧
        x ∈ ["unparse", "dump", "detailed", "summary"]) ∧
      (dump = true ↔ ∃ a ∈ args, a.get? .value = some (.str "dump")) ∧
      (detailed = true ↔ ∃ a ∈ args, a.get? .value = some (.str "detailed")) := by
  obtain ⟨h1, h2, h3⟩ := parseArgs_ok args h
  exact ⟨h1, by simpa using h2, by simpa using h3⟩

/-- C50: what `step_expansion` does when it ends, by returning or by an exception: it has stepped through the expansion of
the tree. -/
theorem C50_steps (E : Env (User σ)) (hook : Nat → Nat) (m f : Nat) (a : MArgs) (args : List Val) (dump detailed : Bool)
    (s s' : Expander.St (User σ)) (r : Except Exc Ret) (hs : a.synt = .expr ∨ a.synt = .block) (ha : a.args = some args)
    (hp : parseArgs args (false, false) = .ok (dump, detailed)) (hf : a.tree.isTree = true)
    (h : run (visit E f) (stepExpansion E hook m a) s = some (r, s')) :
    ∃ ts o s1, Stepping E dump (levelOf s) 0 a.tree (opened hook dump detailed a.tree s) ts o s1 ∧
      (r, s') = closed dump s o s1 :=
  stepExpansion_steps hs ha hp (formats_tree hf) h

/-- C50: if stepping through the expansion ends, so does `step_expansion`, with that outcome. -/
theorem C50_finishes (E : Env (User σ)) (hook : Nat → Nat) (a : MArgs) (args : List Val) (dump detailed : Bool)
    (s s1 : Expander.St (User σ)) (ts : List Val) (o : Except Exc (Val × Nat)) (hs : a.synt = .expr ∨ a.synt = .block)
    (ha : a.args = some args) (hp : parseArgs args (false, false) = .ok (dump, detailed)) (hf : a.tree.isTree = true)
    (h : Stepping E dump (levelOf s) 0 a.tree (opened hook dump detailed a.tree s) ts o s1) :
    ∃ f0 m0, ∀ f m, f0 ≤ f → m0 ≤ m → run (visit E f) (stepExpansion E hook m a) s = some (closed dump s o s1) :=
  stepExpansion_of_steps hs ha hp (formats_tree hf) h

/-- C50: when `step_expansion` returns, there are no invocations left in the tree. -/
theorem C50_nothing_left (E : Env (User σ)) (hook : Nat → Nat) (m f : Nat) (a : MArgs) (s s' : Expander.St (User σ)) (t : Val)
    (hf : a.tree.isTree = true) (h : run (visit E f) (stepExpansion E hook m a) s = some (.ok (.val t), s'))
    (ht : t.isTree = true) (hs : Shaped t) : NoInvocations E s'.world t := by
  obtain ⟨args, dump, detailed, h1, h2, h3⟩ := stepExpansion_ok h
  obtain ⟨ts, o, s1, h4, h5⟩ := stepExpansion_steps h1 h2 h3 (formats_tree hf) h
  cases o with
  | error e => cases h5
  | ok p =>
    obtain ⟨t1, n⟩ := p
    cases h5
    have h6 := (C24_nothing E _ t [] ht hs (h4.end_collects rfl)).mp rfl
    intro u hu hi
    exact h6 u hu ((invocation_world (w := s1.world) (w' := pop (emit _ s1.world)) rfl).mp hi)

/-- C50: what is shown, in this order: the tree before expansion, the tree after each step, and the number of steps.  The
result is the tree after the last step. -/
theorem C50_shown (E : Env (User σ)) (hE : Silent E) (hook : Nat → Nat) (m f : Nat) (a : MArgs) (args : List Val)
    (dump detailed : Bool) (s s' : Expander.St (User σ)) (r : Except Exc Ret) (hs : a.synt = .expr ∨ a.synt = .block)
    (ha : a.args = some args) (hp : parseArgs args (false, false) = .ok (dump, detailed)) (hf : a.tree.isTree = true)
    (h : run (visit E f) (stepExpansion E hook m a) s = some (r, s')) :
    ∃ ts o s1, Stepping E dump (levelOf s) 0 a.tree (opened hook dump detailed a.tree s) ts o s1 ∧
      progress (levelOf s) s'.world = progress (levelOf s) s.world ++ ⟨levelOf s, dump, .before a.tree⟩ ::
        stepLines (levelOf s) dump 1 ts ++ lastLines (levelOf s) dump o ∧
      ∀ t, r = .ok (.val t) → o = .ok (t, ts.length) ∧ t = ts.getLast?.getD a.tree := by
  obtain ⟨ts, o, s1, h1, h2⟩ := stepExpansion_steps hs ha hp (formats_tree hf) h
  obtain ⟨-, -, h3, h4⟩ := h1.shown hE rfl
  have h5 : progress (levelOf s) (opened hook dump detailed a.tree s).world =
      progress (levelOf s) s.world ++ [⟨levelOf s, dump, .before a.tree⟩] := by
    show progress (levelOf s) (emit _ (push dump s.world)) = _
    rw [progress_emit]
    simp [Event.isProgress]
    rfl
  rw [h5] at h3
  refine ⟨ts, o, s1, h1, ?_, ?_⟩
  · cases o with
    | error e =>
      cases h2
      show progress (levelOf s) s1.world = _
      rw [h3]
      simp [lastLines]
    | ok p =>
      obtain ⟨t, n⟩ := p
      cases h2
      show progress (levelOf s) (emit _ s1.world) = _
      rw [progress_emit, h3]
      simp [lastLines, Event.isProgress]
  · intro t e
    subst e
    cases o with
    | error e => cases h2
    | ok p =>
      obtain ⟨t, n⟩ := p
      cases h2
      obtain ⟨h6, h7⟩ := h4 t n rfl
      exact ⟨by rw [h6, Nat.zero_add], h7⟩

section
open StepExpansion.Ex
open Expander.Ex (sub call pass withStmt)

/-- C50 fails: stepping through `f()[x]`, where `f` is not a macro, raises SyntaxError. -/
theorem C50_call_violated :
    Runs env .recursively (sub (call (name "f") []) (name "x")) start (.ok (sub (call (name "f") []) (name "x"))) start ∧
      ∃ s', run (visit env 10) (stepExpansion env id 10 (exprArgs [] (sub (call (name "f") []) (name "x")))) start =
        some (.error (.py .syntaxError), s') :=
  ⟨⟨10, rfl⟩, _, rfl⟩

/-- C50 fails: stepping through `with d: pass` with the argument "dump", where `d` deletes the statement, raises
TypeError. -/
theorem C50_dump_violated :
    (∃ s', Runs env .recursively (.list [withStmt [name "d"] [pass]]) start (.ok .none) s') ∧
      ∃ s', run (visit env 10) (stepExpansion env id 10 (blockArgs [str "dump"] [withStmt [name "d"] [pass]])) start =
        some (.error (.py .typeError), s') :=
  ⟨⟨_, 10, rfl⟩, _, rfl⟩

/-! ### Concrete cases -/

/-- `r[x]` -/
def stepTree : Val := sub (name "r") (name "x")

/-- The value returned, if any; the messages. -/
def stepReport {α : Type} (x : Option (Except Exc α × Expander.St (User Unit))) : Option (Option α × List Line) :=
  x.map fun p => (p.1.toOption, p.2.world.user.stderr)

/-- Two steps: `m[x]`, `x`. -/
example : stepReport (run (visit env 10) (stepExpansion env id 10 (exprArgs [] stepTree)) start) =
    some (some (.val (name "x")), [⟨1, false, .before stepTree⟩, ⟨1, false, .after 1 (sub (name "m") (name "x"))⟩,
      ⟨1, false, .after 2 (name "x")⟩, ⟨1, false, .complete 2⟩]) := by
  decide +kernel

/-- With details; a macro raises an exception in the third step. -/
example : stepReport (run (visit env 10) (stepExpansion env id 10 (exprArgs [str "detailed", str "dump"]
      (sub (name "r") (sub (name "e") (name "x"))))) start) =
    some (none, [⟨1, true, .before (sub (name "r") (sub (name "e") (name "x")))⟩,
      ⟨1, true, .applying 1 "r" (sub (name "r") (sub (name "e") (name "x")))⟩,
      ⟨1, true, .result (.val (sub (name "m") (sub (name "e") (name "x"))))⟩,
      ⟨1, true, .after 1 (sub (name "m") (sub (name "e") (name "x")))⟩,
      ⟨1, true, .applying 2 "m" (sub (name "m") (sub (name "e") (name "x")))⟩,
      ⟨1, true, .result (.val (sub (name "e") (name "x")))⟩,
      ⟨1, true, .after 2 (sub (name "e") (name "x"))⟩]) := by
  decide +kernel

/-- `s["detailed"][s[r[x]]]` as a program: the inner messages come during the first step of the outer one. -/
example : stepReport (visitAs env 20 .recursively (sub (sub (name "s") (str "detailed")) (sub (name "s") stepTree)) start) =
    some (some (name "x"), [⟨1, false, .before (sub (name "s") stepTree)⟩, ⟨2, false, .before stepTree⟩,
      ⟨1, false, .applying 1 "r" stepTree⟩, ⟨1, false, .result (.val (sub (name "m") (name "x")))⟩,
      ⟨2, false, .after 1 (sub (name "m") (name "x"))⟩, ⟨1, false, .applying 1 "m" (sub (name "m") (name "x"))⟩,
      ⟨1, false, .result (.val (name "x"))⟩, ⟨2, false, .after 2 (name "x")⟩, ⟨2, false, .complete 2⟩,
      ⟨1, false, .applying 1 "s" (sub (name "s") stepTree)⟩, ⟨1, false, .result (.val (name "x"))⟩,
      ⟨1, false, .after 1 (name "x")⟩, ⟨1, false, .complete 1⟩]) := by
  decide +kernel

example : (exprArgs [] stepTree).tree.isTree = true ∧ parseArgs [] (false, false) = .ok (false, false) := ⟨rfl, rfl⟩
example : (name "x").isTree = true ∧ Shaped (name "x") := ⟨rfl, shaped_of (by decide +kernel)⟩

/-- None of these macros but `step_expansion` prints. -/
example : Silent env where
  macros
    | 0 | 1 | 2 | 3 => .inl fun _ _ => rfl
    | _ + 4 => .inr ⟨_, _, _, rfl⟩
  hooks i := .inr ⟨i, rfl⟩

end

end Mcpyrate
