import Verif.Lemmas.ExpanderAgain
import Verif.Spec.ExpanderExample
/-
C18 recursive expansion runs until no macro invocations are left.

Full statement: when `visit_recursively` returns, the result has no invocation of a bound macro outside of
`Done`-marked parts, for every tree and all macros.

That does not hold.  An expansion is visited, but it is not seen together with what is around it: in `k[a][b]` where
`k[a]` expands to the name `m`, the result is `m[b]`, which is an invocation (`C18_violated`).  And a macro can bind
another one when a part of the tree has been visited already (`C18_bindings_violated`).

`C18_recursive_partial` is for macros (and debug hooks) that leave the bindings as they are, and return grammatical
trees that are not just the name of a macro (as `m` in `m[b]`, or `m(a)` in `m(a)[b]`); an identifier macro returns one
expression or `None`.  The tree to be expanded has to be grammatical.  Nothing is said about visits that raise an
exception or do not terminate.
-/
namespace Mcpyrate
open Py Expander

variable {υ : Type}

/-- C18: after `visit_recursively`, no invocations are left, and the bindings are the same. -/
theorem C18_recursive_partial (E : Env υ) (w : World υ) (t r : Val) (s' : St υ)
    (hE : E.Keeps bindings) (ht : t.isTree = true) (hg : Grammatical t)
    (h : Runs E .recursively t (init w) (.ok r) s')
    (hout : ∀ e ∈ s'.log, e.depth = 0 → ∀ v, Returns E w e v → GoodExpansion E w e v) :
    NoInvocations E w r ∧ bindings s'.world = bindings w := by
  obtain ⟨n, h⟩ := h
  unfold visitAs visitMode withMode at h
  obtain ⟨s0, h0, rfl⟩ := bracket_some h
  have hk := visit_keeps bindings_local hE n t { init w with recursive := true } _ _ h0
  obtain ⟨h1, h2, -⟩ := visit_fine (w := w) hE n t _ _ _ ht hg rfl rfl h0 hout
  refine ⟨?_, hk⟩
  cases r with
  | const => intro u hu; cases hu with
    | refl => intro hi; exact Bool.noConfusion hi.isAST
    | step _ hm => simp [childNodes] at hm
  | list xs =>
    refine noInvocations_of (fun _ hi => Bool.noConfusion hi.isAST) fun u hu => ?_
    obtain ⟨x, -, hx⟩ := h1 u (List.mem_filter.mp hu).1
    exact hx.clean
  | node c l fs =>
    obtain ⟨x, -, hx⟩ := h1 _ (List.mem_singleton.mpr rfl)
    exact hx.clean

/-- C18: without invocations there is nothing to do.  If a visit of such a tree returns, the result is the same tree
(in `Done`, for `visit_once`), and no macro has been called. -/
theorem C18_nothing_left (E : Env υ) (mode : Mode) (t r : Val) (s s' : St υ) (ht : t.isTree = true) (hne : t ≠ .list [])
    (hn : NoInvocations E s.world t) (h : Runs E mode t s (.ok r) s') : r = wrap mode t ∧ s' = s := by
  obtain ⟨n, h⟩ := h
  cases mode with
  | current => exact visit_inert s n t ht hne hn r s' h
  | recursively =>
    unfold visitAs visitMode withMode at h
    obtain ⟨s0, h0, rfl⟩ := bracket_some h
    obtain ⟨rfl, rfl⟩ := visit_inert { s with recursive := true } n t ht hne hn r s0 h0
    exact ⟨rfl, rfl⟩
  | once =>
    unfold visitAs visitMode withMode at h
    obtain ⟨s0, h0, rfl⟩ := bracket_some h
    obtain ⟨v, s1, k1, k2⟩ := bind_ok (m := visit E n t) h0
    obtain ⟨rfl, rfl⟩ := visit_inert { s with recursive := false } n t ht hne hn v s1 k1
    have k2' : (some (.ok (done v), { s with recursive := false }) : Option (Except Exc Val × St υ)) = some (.ok r, s0) := k2
    cases k2'
    exact ⟨rfl, rfl⟩

/-- C18: so that expanding the result again changes nothing. -/
theorem C18_again_partial (E : Env υ) (w : World υ) (t r r' : Val) (s' s'' : St υ)
    (hE : E.Keeps bindings) (ht : t.isTree = true) (hg : Grammatical t)
    (h : Runs E .recursively t (init w) (.ok r) s')
    (hout : ∀ e ∈ s'.log, e.depth = 0 → ∀ v, Returns E w e v → GoodExpansion E w e v)
    (hr : r.isTree = true) (hne : r ≠ .list []) (h' : Runs E .recursively r s' (.ok r') s'') : r' = r ∧ s'' = s' := by
  obtain ⟨hn, hb⟩ := C18_recursive_partial E w t r s' hE ht hg h hout
  exact C18_nothing_left E .recursively r r' s' s'' hr hne
    (fun u hu hi => hn u hu ((invocation_world hb).mp hi)) h'

namespace Fixpoint
open Expander.Ex

/-- `k[e]` expands to the name `m`, whatever `e` is; `m[e]` expands to `e`. -/
def env : Env Unit :=
  { Ex.env with macros := fun | 0 => identity | _ => ⟨false, false, fun _ => .ret (.val (name "m"))⟩ }
def world : World Unit := { locals := [("m", 0), ("k", 1)], globals := [], user := () }

/-- `bind[e]` binds `x` as the identity macro, and expands to `e`. -/
def env2 : Env Unit :=
  { Ex.env with macros := fun
      | 0 => identity
      | _ => ⟨false, false, fun a => .get fun _ w => .put { w with locals := w.locals.set "x" 0 } (.ret (.val a.tree))⟩ }
def world2 : World Unit := { locals := [("bind", 1)], globals := [], user := () }

end Fixpoint
open Fixpoint

/-- C18 does not hold in general: `k[a][b]` gives `m[b]`, which is an invocation of the macro `m`. -/
theorem C18_violated : ∃ (E : Env Unit) (w : World Unit) (t r : Val) (s' : St Unit),
    Grammatical t ∧ Runs E .recursively t (init w) (.ok r) s' ∧ s'.world = w ∧ ¬ NoInvocations E w r := by
  refine ⟨Fixpoint.env, Fixpoint.world, Ex.sub (Ex.sub (name "k") (name "a")) (name "b"), Ex.sub (name "m") (name "b"),
    _, ?_, ⟨10, rfl⟩, rfl, ?_⟩
  · exact grammatical_of (by decide +kernel)
  · intro hn
    exact hn _ (.refl _ rfl) (.expr rfl rfl ⟨"m", [], 0, .plain rfl rfl, by decide, rfl, .inl rfl⟩)

/-- C18 does not hold when macros change the bindings: in `(x[y], bind[z])` the first element is left as it is, but
`x` is a macro in the end. -/
theorem C18_bindings_violated : ∃ (E : Env Unit) (w : World Unit) (t r : Val) (s' : St Unit),
    Grammatical t ∧ Runs E .recursively t (init w) (.ok r) s' ∧ ¬ NoInvocations E s'.world r := by
  refine ⟨Fixpoint.env2, Fixpoint.world2, mk .Tuple [(.elts, .list [Ex.sub (name "x") (name "y"),
    Ex.sub (name "bind") (name "z")])], mk .Tuple [(.elts, .list [Ex.sub (name "x") (name "y"), name "z"])],
    _, ?_, ⟨10, rfl⟩, ?_⟩
  · exact grammatical_of (by decide +kernel)
  · intro hn
    exact hn (Ex.sub (name "x") (name "y")) (.step rfl (by decide +kernel) (.refl _ rfl)) (.expr rfl rfl ⟨"x", [], 0, .plain rfl rfl, by decide, rfl, .inl rfl⟩)

/-- `r[x]` expands to `m[x]`, and that to `x`. -/
example : ∃ s', Grammatical (Ex.sub (name "r") (name "x")) ∧ Ex.env.Keeps bindings ∧
    Runs Ex.env .recursively (Ex.sub (name "r") (name "x")) (init Ex.world) (.ok (name "x")) s' ∧
    s'.log.length = 2 ∧
    (∀ e ∈ s'.log, e.depth = 0 → ∀ v, Returns Ex.env Ex.world e v → GoodExpansion Ex.env Ex.world e v) := by
  refine ⟨_, grammatical_of (by decide +kernel), ⟨?_, fun _ _ _ _ _ => rfl⟩, ⟨10, rfl⟩, rfl, ?_⟩
  · intro i a x
    rcases i with _ | _ | _ | _ | _ | _ | _ | _ | i <;> first | rfl | (rintro (_ | _) <;> rfl)
  · intro e he _ v ⟨n, s, s1, ret, _, hr, hc⟩
    rcases List.mem_cons.mp he with rfl | he
    · cases hr; cases hc
      refine ⟨grammatical_of (by decide +kernel), ?_, by intro h; cases h⟩
      intro x hx
      cases List.mem_singleton.mp hx
      rintro ⟨-, h⟩
      exact h (.expr rfl rfl ⟨"m", [], 0, .plain rfl rfl, by decide, rfl, .inl rfl⟩)
    · cases List.mem_singleton.mp he
      cases hr; cases hc
      refine ⟨grammatical_of (by decide +kernel), ?_, by intro h; cases h⟩
      intro x hx
      cases List.mem_singleton.mp hx
      rintro ⟨⟨k, as, id, hk, -, hb, -⟩, -⟩
      cases hk with
      | plain _ h => cases h; cases hb
      | bracket h => cases h
      | brackets h => cases h
      | parens h => cases h

end Mcpyrate
