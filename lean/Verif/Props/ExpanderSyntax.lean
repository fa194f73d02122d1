import Verif.Lemmas.ExpanderSyntax
import Verif.Spec.ExpanderExample
/-
C21 macro invocation syntax is recognised as documented.

Full property: a node is expanded exactly when it is a macro invocation by the documented rules
(`Invokes`), and the macro receives what the documentation says.  The code deviates in two points:
* identifier macros receive `args=None`, not the documented `args=[]` (`C21_name_args_violated`; the
  specification `Invokes` has `args=None` for this case);
* decorators of `async def` are not recognised, although the documentation lists async function
  definitions (`C21_async_violated`; the specification does not list them).
The theorems ending in `_partial` are the property with these two points changed.
-/
namespace Mcpyrate
open Py Expander

variable {υ : Type}

/-- C21: an invocation is expanded: the first macro application of the visit is the documented one,
and the macro receives the documented arguments. -/
theorem C21_applied_partial (E : Env υ) (mode : Mode) (t c : Val) (s s' : St υ) (r : Except Exc Val)
    (k : String) (id : Nat) (a : MArgs) (hw : WellFormed t) (hi : Invokes E s.world t k id a c)
    (hc : ¬ BadCall c) (h : Runs E mode t s r s') :
    ∃ e l, fresh s s' = e :: l ∧ e.name = k ∧ e.fn = id ∧ e.margs = a ∧ e.depth = s.depth := by
  obtain ⟨n, b, r0, s0, hv, rfl, -, -, -⟩ := h.toVisit
  obtain ⟨h1, h2, h3⟩ := invokes_node hi
  cases n with
  | zero => cases hv
  | succ n =>
    replace hv := (visit_node (n := n) (s := { s with recursive := b }) h1 h2 (bound_noBindings h3)).symm.trans hv
    have := (visitNode_invokes (s := { s with recursive := b }) (vis := visit E n) hw hi)
    exact applies_first (s := { s with recursive := b }) (r := r0) (s' := s0) (this.2.1 hc) this.1 hv

/-- C21: an invocation with parentheses without arguments, or with `*`-unpacking, is rejected with
SyntaxError, and no macro is applied. -/
theorem C21_rejected (E : Env υ) (mode : Mode) (t c : Val) (s s' : St υ) (r : Except Exc Val)
    (k : String) (id : Nat) (a : MArgs) (hw : WellFormed t) (hi : Invokes E s.world t k id a c)
    (hc : BadCall c) : Runs E mode t s r s' ↔ r = .error (.py .syntaxError) ∧ s' = s := by
  obtain ⟨h1, h2, h3⟩ := invokes_node hi
  have hv : ∀ b, visit E 1 t { s with recursive := b } =
      some (.error (.py .syntaxError), { s with recursive := b }) := by
    intro b
    exact (visit_node (n := 0) (s := { s with recursive := b }) h1 h2 (bound_noBindings h3)).trans
      ((visitNode_invokes (s := { s with recursive := b }) (vis := visit E 0) hw hi).2.2 hc)
  have : Runs E mode t s (.error (.py .syntaxError)) s := by
    refine ⟨1, ?_⟩
    cases mode with
    | current => exact hv s.recursive
    | recursively => simp [visitAs, visitMode, withMode, M.bracket, hv]
    | once => simp [visitAs, visitMode, withMode, M.bracket, Bind.bind, M.bind, hv]
  constructor
  · intro h
    obtain ⟨h1, h2⟩ := this.det h
    exact ⟨h1.symm, h2.symm⟩
  · rintro ⟨rfl, rfl⟩; exact this

/-- C21: a node that is not an invocation is not expanded: a name is returned as it is, any other node
only has its fields visited. -/
theorem C21_not_invoked (E : Env υ) (n : Nat) (t : Val) (s : St υ) (hw : WellFormed t)
    (ht : t.isAST = true) (hd : isDone t = false) (hb : s.world.locals ≠ [] ∨ s.world.globals ≠ [])
    (hn : ¬ Invocation E s.world t) :
    visit E (n + 1) t s =
      if t.isK .Name then some (.ok t, s) else genericVisit (visit E n) t s := by
  rw [visit_node ht hd, visitNode_other hw hn]
  cases hl : s.world.locals <;> cases hg : s.world.globals <;> simp_all [noBindings]

/-- C21: the two descriptions agree: a node is an invocation if and only if it invokes some macro with
some arguments. -/
theorem C21_invokes_iff (E : Env υ) (w : World υ) (t : Val) (hw : WellFormed t)
    (hbody : t.isK .With = true → hasField t .body = true) :
    Invocation E w t ↔ ∃ k id a c, Invokes E w t k id a c := by
  constructor
  · exact invocation_invokes hw hbody
  · rintro ⟨k, id, a, c, h⟩
    cases h with
    | expr hk hv hc ha _ => exact .expr hk hv ⟨_, _, _, hc, ha⟩
    | block hk hi _ hic hc ha _ => exact .block hk hi (by simp) hic ⟨_, _, _, hc, ha⟩
    | decorator hk hi _ hc ha => exact .decorator hk hi (by simp) ⟨_, _, _, hc, ha⟩
    | name h1 h2 h3 h4 h5 => exact .name h1 h2 h3 h4 h5

/-- C21: macro arguments are passed only to parametric macros. -/
theorem C21_args (E : Env υ) (w : World υ) (t c : Val) (k : String) (id : Nat) (a : MArgs)
    (h : Invokes E w t k id a c) (hp : (E.macros id).isParam = false) :
    a.args = if a.synt = .name then none else some [] := by
  cases h with
  | expr _ _ _ ha _ => obtain ⟨-, -, h | h⟩ := ha <;> simp_all
  | block _ _ _ _ _ ha _ => obtain ⟨-, -, h | h⟩ := ha <;> simp_all
  | decorator _ _ _ _ ha => obtain ⟨-, -, h | h⟩ := ha <;> simp_all
  | name => rfl

section
open Expander.Ex

/-- `async def f(): …` with decorators -/
def asyncDef (decorators body : List Val) : Val :=
  mk .AsyncFunctionDef [(.name, .str "f"), (.args, mk .arguments []), (.body, .list body),
    (.decorator_list, .list decorators), (.returns, .none)]

/-- C21 fails: an identifier macro receives `args=None`. -/
theorem C21_name_args_violated :
    ∃ s', Runs env .recursively (name "n") start (.ok (done (name "n"))) s' ∧
      s'.log.map (fun e => (e.name, e.margs.args)) = [("n", none)] := by
  have h : ∃ s', visitAs env 5 .recursively (name "n") start = some (.ok (done (name "n")), s') ∧
      s'.log.map (fun e => (e.name, e.margs.args)) = [("n", none)] := ⟨_, rfl, rfl⟩
  obtain ⟨s', h1, h2⟩ := h
  exact ⟨s', ⟨5, h1⟩, h2⟩

/-- C21 fails: the decorator macro `m` of `async def` is not applied (that of `def` is). -/
theorem C21_async_violated :
    Runs env .recursively (asyncDef [name "m"] [pass]) start (.ok (asyncDef [name "m"] [pass])) start ∧
    ∃ r s', Runs env .recursively (defStmt [name "m"] [pass]) start r s' ∧
      s'.log.map (fun e => (e.name, e.margs.synt)) = [("m", .decorator)] := by
  refine ⟨⟨9, by decide +kernel⟩, ?_⟩
  have h : ∃ r s', visitAs env 9 .recursively (defStmt [name "m"] [pass]) start = some (r, s') ∧
      s'.log.map (fun e => (e.name, e.margs.synt)) = [("m", .decorator)] := ⟨_, _, rfl, rfl⟩
  obtain ⟨r, s', h1, h2⟩ := h
  exact ⟨r, s', ⟨9, h1⟩, h2⟩

/-! ### Concrete cases -/

-- `p[x][y]` with parametric `p`, `m(x)` with non-parametric `m`
example : Invokes env world (sub (sub (name "p") (name "x")) (name "y")) "p" 4
    ⟨.expr, name "y", some [name "x"], none, sub (sub (name "p") (name "x")) (name "y")⟩
    (sub (name "p") (name "x")) :=
  .expr rfl rfl (.bracket rfl rfl rfl rfl rfl rfl) ⟨by decide, by decide, .inr rfl⟩ rfl

example : ¬ Names env world (sub (name "m") (name "x")) := by
  rintro ⟨k, as, id, hc, ha⟩
  have := Candidate.unique hc (.bracket rfl rfl rfl rfl rfl rfl : Candidate (sub (name "m") (name "x")) "m" [name "x"])
  obtain ⟨rfl, rfl⟩ := this
  obtain ⟨-, h1, h2⟩ := ha
  have : id = 0 := by have : isbound world "m" = some 0 := by decide
                      rw [this] at h1; cases h1; rfl
  subst this
  rcases h2 with h2 | h2
  · cases h2
  · revert h2; decide

-- `with x, m, p(y): pass`: `m` is popped first
example : Invokes env world (withStmt [name "x", name "m", call (name "p") [name "y"]] [pass]) "m" 0
    ⟨.block, .list [withStmt [name "x", call (name "p") [name "y"]] [pass]], some [], some .none,
      withStmt [name "x", name "m", call (name "p") [name "y"]] [pass]⟩ (name "m") := by
  refine .block (before := [mk .withitem [(.context_expr, name "x"), (.optional_vars, .none)]])
    (item := mk .withitem [(.context_expr, name "m"), (.optional_vars, .none)])
    (after := [mk .withitem [(.context_expr, call (name "p") [name "y"]), (.optional_vars, .none)]])
    rfl rfl ?_ rfl (.plain rfl rfl) ⟨by decide, by decide, .inl rfl⟩ rfl
  intro i hi c hc
  simp only [List.mem_singleton] at hi
  subst hi
  cases hc
  rintro ⟨k, as, id, hc, ha⟩
  have := Candidate.unique hc (.plain rfl rfl : Candidate (name "x") "x" [])
  obtain ⟨rfl, rfl⟩ := this
  have h := ha.2.1
  have : isbound world "x" = none := by decide
  rw [this] at h; cases h

-- `p()[x]` is rejected
example : (visitAs env 9 .recursively (sub (call (name "p") []) (name "x")) start).map (·.1)
    = some (.error (.py .syntaxError)) := by decide +kernel

end
end Mcpyrate
