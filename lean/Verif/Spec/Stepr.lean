import Verif.Spec.ExpandRuntime
import Verif.Model.Stepr
/-
Notions for the statements about `stepr`.
-/
namespace Mcpyrate.Stepr
open Py Expander QuoteOps ExpandRuntime

variable {σ τ υ : Type}

/-- The place where the generated code runs. -/
structure RunTime (L : Lib σ) (w : World υ) (H : Quotes.Host τ) : Prop extends ExpandRuntime.RunTime L w H where
  stepper : H.attr (.ref ["mcpyrate", "metatools"]) "step_expansion" = pure (.ref ["mcpyrate", "metatools", "step_expansion"])
  expander : H.attr (.ref ["mcpyrate", "metatools"]) "MacroExpander" = pure (.ref ["mcpyrate", "metatools", "MacroExpander"])

/-- `step_expansion(v, args=args, syntax="expr", expander=MacroExpander(bindings=…, filename=…))` -/
def callsStepper (L : Lib σ) (H : Quotes.Host τ) (filename : String) (b : Dict String Nat) (args : List Val) (v : Obj) :
    Quotes.Q τ Obj := do
  let e ← H.call (.ref ["mcpyrate", "metatools", "MacroExpander"]) [] [("bindings", dictOf L b), ("filename", .str filename)]
  H.call (.ref ["mcpyrate", "metatools", "step_expansion"]) [v]
    [("args", Quotes.noLoc (.ofVal (.list args))), ("syntax", .str "expr"), ("expander", e)]

end Mcpyrate.Stepr
