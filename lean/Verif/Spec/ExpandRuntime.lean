import Verif.Spec.ExpandStatic
import Verif.Spec.Captures
import Verif.Model.ExpandRuntime
/-
Notions for the statements about run-time expansion.
-/
namespace Mcpyrate.ExpandRuntime
open Py Expander QuoteOps ExpandStatic

variable {σ τ υ : Type}

/-- `b` contains the bindings of the expander in state `w`: each name once, bound to what the expander would use for it. -/
structure Snapshot (w : World υ) (b : Dict String Nat) : Prop where
  wf : Dict.WF b
  bound : ∀ k, b.get k = isbound w k

/-- The dictionary `{"name": function, …}`. -/
def dictOf (L : Lib σ) (b : Dict String Nat) : Obj :=
  .dict (b.map fun p => .str p.1) (b.map fun p => L.function p.2)

/-- The macros that are bound in state `w` can be pickled. -/
def Picklable (L : Lib σ) (w : World υ) : Prop := ∀ k i, isbound w k = some i → ∃ f, L.H.pickle (L.function i) = .ok f

/-- The function that expands this many layers. -/
def functionFor : Layers → String
  | .one => "runtime_expand1"
  | .all => "runtime_expand"

/-- The place where the generated code runs, perhaps in another process: the name `mcpyrate` refers to the library, the
builtins have not been shadowed, a dict display with different strings as keys makes a dict of these items, and unpickling
gives the macro functions. -/
structure RunTime (L : Lib σ) (w : World υ) (H : Quotes.Host τ) : Prop where
  imported : Quotes.Imported H
  metatools : H.attr (.ref ["mcpyrate"]) "metatools" = pure (.ref ["mcpyrate", "metatools"])
  function : ∀ layers, H.attr (.ref ["mcpyrate", "metatools"]) (functionFor layers) =
    pure (.ref ["mcpyrate", "metatools", functionFor layers])
  builtins : Quotes.Builtins H
  dicts : ∀ items : List (String × Obj), (items.map (·.1)).Nodup →
    H.mkDict (items.map fun p => (some (.str p.1), p.2)) = .ok (.dict (items.map fun p => .str p.1) (items.map (·.2)))
  unpickle : ∀ k i f, isbound w k = some i → L.H.pickle (L.function i) = .ok f → H.unpickle f = .ok (L.function i)

/-- The call `mcpyrate.metatools.runtime_expand(bindings=…, filename=…, tree=v)`. -/
def callsExpander (L : Lib σ) (H : Quotes.Host τ) (filename : String) (layers : Layers) (b : Dict String Nat) (v : Obj) :
    Quotes.Q τ Obj :=
  H.call (.ref ["mcpyrate", "metatools", functionFor layers]) []
    [("bindings", dictOf L b), ("filename", .str filename), ("tree", v)]

/-- `code`, where it runs, gives what the expansion of the value of `tree` gives, with the macros that were bound in state
`w` when the code was made. -/
def Delays (L : Lib σ) (filename : String) (layers : Layers) (w : World υ) (tree code : Val) : Prop :=
  ∃ b, Snapshot w b ∧ ∀ (τ : Type) (H : Quotes.Host τ), RunTime L w H →
    Quotes.eval H (.ofVal code) = (do
      let v ← Quotes.eval H (.ofVal tree)
      callsExpander L H filename layers b v)

/-- `runtime_expand1`, `runtime_expand` finish with this outcome. -/
def Expands (E : Env υ) (layers : Layers) (b : Dict String Nat) (tree : Val) (w : World υ) (r : Except Exc Val)
    (w' : World υ) : Prop := ∃ n, runtimeExpand E n layers b tree w = some (r, w')

end Mcpyrate.ExpandRuntime
