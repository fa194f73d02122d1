import Verif.Model.ExpandRuntime
/-
Model of the macro `stepr`, `mcpyrate/metatools.py:425-452`.
-/
namespace Mcpyrate.Stepr
open Py Expander QuoteOps ExpandRuntime

variable {σ : Type}

/-- The code that `stepr` makes, metatools.py:444-452, around the code of the bindings and of the macro arguments; `syntax`
is "expr" there. -/
def stepCode (filename : String) (bindings args : Obj) (tree : Val) : Obj :=
  Quotes.callNode (metatoolsAttr "step_expansion") [.ofVal tree]
    [keyword "args" args, keyword "syntax" (Quotes.constantNode (.str "expr")),
      keyword "expander" (Quotes.callNode (metatoolsAttr "MacroExpander") []
        [keyword "bindings" bindings, keyword "filename" (Quotes.constantNode (.str filename))])]

/-- `w` with another state of the quasiquote system. -/
def withSt (w : W σ) (st : Quotes.St σ) : W σ := { w with user := { w.user with st := st } }

/-- `stepr`, metatools.py:425-452; `astify(args)` has no expander.  Without `args` (which the expander always passes) Python
raises TypeError. -/
def stepR (L : Lib σ) (filename : String) (a : MArgs) : Prog (User σ) :=
  match a.args with
  | none => .raise (.py .typeError)
  | some args =>
    if a.synt ≠ .expr then .raise (.py .syntaxError)
    else .get fun _ w =>
      match macroBindings L w with
      | .error e => .raise (.py e)
      | .ok b =>
        match Quotes.astify L.H none (.ofVal (.list args)) w.user.st with
        | none => .hang
        | some (.error e, st) => .put (withSt w st) (.raise (.py e))
        | some (.ok x, st) => .put (withSt w st) (ExpandFirst.give (asCode (stepCode filename b x a.tree)))

end Mcpyrate.Stepr
