import Verif.Model.QuoteOps
/-
Model of the macros that expand quoted code at macro expansion time, `mcpyrate/metatools.py:167-284`: `expand1sq`,
`expandsq`, `expand1s`, `expands`.

Simplifications: a global binding that `unastify` makes, for a macro that was captured with `h[…]`, is not passed on to the
expander (C37 is about these).  `visit` of an object that is no AST, list or `None` raises AttributeError, also when there
are no macro bindings at all.
-/
namespace Mcpyrate.ExpandStatic
open Py Expander QuoteOps

/-- `x = p(…)`, and then `k(x)`; exceptions of `p` are passed on. -/
def followed {υ : Type} (k : Ret → Prog υ) : Prog υ → Prog υ
  | .ret r => k r
  | .raise e => .raise e
  | .visit mode t f => .visit mode t fun r => followed k (f r)
  | .withHook h body f => .withHook h body fun r => followed k (f r)
  | .get f => .get fun b w => followed k (f b w)
  | .put w p => .put w (followed k p)
  | .visitNew b t f => .visitNew b t fun r => followed k (f r)
  | .hang => .hang

variable {σ : Type}

/-- `unastify(tree)` in the state `w`; see the head of this file. -/
def unastifyW (L : Lib σ) (t : Val) : M Exc (W σ) Val := fun w =>
  match Quotes.unastify L.H (Obj.ofVal t) w.user.st with
  | none => none
  | some (.error e, st) => some (.error (.py e), { w with user := { w.user with st := st } })
  | some (.ok x, st) =>
    match x.toVal with
    | some v => some (.ok v, { w with user := { w.user with st := st } })
    | none => some (.error (.py .attributeError), { w with user := { w.user with st := st } })

/-- Go on after a computation that does not involve the expander. -/
def proceed (k : Val → Prog (User σ)) : Option (Except Exc Val × W σ) → Prog (User σ)
  | none => .hang
  | some (.ok v, w) => .put w (k v)
  | some (.error e, w) => .put w (.raise e)

/-- `unastify(tree.body)`, and then `k`. -/
def uncompiled (L : Lib σ) (k : Val → Prog (User σ)) (t : Val) : Prog (User σ) :=
  match attr t .body with
  | .error e => .raise e
  | .ok b => .get fun _ w => proceed k (unastifyW L b w)

/-- The outcome of a visit is passed on to `k`, an exception is raised. -/
def onOk (k : Val → Prog (User σ)) : Except Exc Val → Prog (User σ)
  | .ok t => k t
  | .error e => .raise e

/-- How many layers of macros are expanded. -/
inductive Layers where
  | one | all
  deriving DecidableEq, Repr

/-- `tree = expander.visit_once(t)`, then `q(tree.body, …)`, metatools.py:250, 255; or
`tree = expander.visit_recursively(t)`, then `q(tree, …)`, metatools.py:283-284. -/
def requote (L : Lib σ) (filename : String) (layers : Layers) (a : MArgs) (t : Val) : Prog (User σ) :=
  match layers with
  | .one => .visit .once t (onOk fun r =>
    match attr r .body with
    | .error e => .raise e
    | .ok b => quote L filename { a with tree := b })
  | .all => .visit .recursively t (onOk fun r => quote L filename { a with tree := r })

/-- `expand1s`, metatools.py:221-255, and `expands`, metatools.py:258-284. -/
def expandS (L : Lib σ) (filename : String) (layers : Layers) (a : MArgs) : Prog (User σ) :=
  if a.synt = .expr ∨ a.synt = .block then
    if a.synt = .block ∧ a.optionalVars = none then .raise (.py .keyError)
    else if a.synt = .block ∧ a.optionalVars ≠ some .none then .raise (.py .syntaxError)
    else .visit .once a.tree (onOk (uncompiled L (requote L filename layers a)))
  else .raise (.py .syntaxError)

/-- `if "optional_vars" in kw: kw["optional_vars"] = None`, metatools.py:187-189, 215-217. -/
def noAsname (a : MArgs) : MArgs := { a with optionalVars := a.optionalVars.map fun _ => .none }

/-- `expand1sq`, metatools.py:167-190, and `expandsq`, metatools.py:193-218.  (`q` returns an AST.) -/
def expandSq (L : Lib σ) (filename : String) (layers : Layers) (a : MArgs) : Prog (User σ) :=
  if a.synt = .expr ∨ a.synt = .block then
    followed (fun
      | .val t => expandS L filename layers (noAsname { a with tree := t })
      | .other => .raise (.py .attributeError)) (quote L filename a)
  else .raise (.py .syntaxError)

end Mcpyrate.ExpandStatic
