import Verif.Model.ExpandStatic
import Verif.Model.ExpandFirst
/-
Model of the macros that expand an AST at run time, `mcpyrate/metatools.py:62-105, 288-420`: `macro_bindings`, `expand1rq`,
`expandrq`, `expand1r`, `expandr`, and of `runtime_expand1`, `runtime_expand`, which the generated code calls.

Simplification: the new expander works in the surroundings `E`, which fix the file name; so `filename` is no argument of
`runtimeExpand`.
-/
namespace Mcpyrate.ExpandRuntime
open Py Expander QuoteOps ExpandStatic

variable {σ υ : Type}

/-- `_mcpyrate_metatools_attr(a)`, metatools.py:55-57 with coreutils.py:203-253: `mcpyrate.metatools.a`. -/
def metatoolsAttr (a : String) : Obj :=
  Quotes.attributeNode (Quotes.attributeNode (Quotes.nameNode "mcpyrate") "metatools") a

/-- `ast.keyword(a, v)` -/
def keyword (a : String) (v : Obj) : Obj := Quotes.mkNode .keyword [(.arg, .str a), (.value, v)]

/-- `list(capture_value(v, k) for k, v in expander.bindings.items())`, metatools.py:104. -/
def captureAll (L : Lib σ) : Dict String Nat → Except Err (List Obj)
  | [] => .ok []
  | (k, i) :: b => do
    let c ← Quotes.captureValue L.H (L.function i) (.str k)
    let cs ← captureAll L b
    return c :: cs

/-- `macro_bindings(None, syntax="name", expander=expander)`, metatools.py:85-105; `astify` of a string is a constant. -/
def macroBindings (L : Lib σ) (w : World υ) : Except Err Obj := do
  let b := ExpandFirst.allBindings w
  let vs ← captureAll L b
  return Quotes.dictNode (b.map fun p => Quotes.constantNode (.str p.1)) vs

/-- The macro `macro_bindings`. -/
def macroBindingsMacro (L : Lib σ) (a : MArgs) : Prog υ :=
  if a.synt ≠ .name then .raise (.py .syntaxError)
  else .get fun _ w =>
    match macroBindings L w with
    | .error e => .raise (.py e)
    | .ok x => ExpandFirst.give (asCode x)

/-- The run-time part, metatools.py:403-406. -/
def operator : Layers → String
  | .one => "runtime_expand1"
  | .all => "runtime_expand"

/-- The code that `_expandr_impl` makes, metatools.py:416-420, around the code of the bindings. -/
def expandRCode (filename : String) (layers : Layers) (bindings : Obj) (tree : Val) : Obj :=
  Quotes.callNode (metatoolsAttr (operator layers)) []
    [keyword "bindings" bindings, keyword "filename" (Quotes.constantNode (.str filename)), keyword "tree" (.ofVal tree)]

/-- `expand1r`, `expandr`, metatools.py:363-396, with `_expandr_impl`, metatools.py:399-420. -/
def expandR (L : Lib σ) (filename : String) (layers : Layers) (a : MArgs) : Prog υ :=
  if a.synt = .block ∧ a.optionalVars = none then .raise (.py .keyError)
  else if a.synt = .block ∧ a.optionalVars ≠ some .none then .raise (.py .syntaxError)
  else if a.synt = .expr ∨ a.synt = .block then
    .get fun _ w =>
      match macroBindings L w with
      | .error e => .raise (.py e)
      | .ok b => ExpandFirst.give (asCode (expandRCode filename layers b a.tree))
  else .raise (.py .syntaxError)

/-- `tree.value = …; return tree`, metatools.py:320-321, 359-360. -/
def setValue (t : Val) : Ret → Prog υ
  | .val v =>
    match t with
    | .node c l fs => .ret (.val (.node c l (setF fs .value v)))
    | _ => .raise (.py .attributeError)
  | .other => .raise (.py .attributeError)

/-- The part of `expand1rq`, `expandrq` after the quote, metatools.py:313-321, 352-360. -/
def expandQuoted (L : Lib σ) (filename : String) (layers : Layers) (a : MArgs) (t : Val) : Prog υ :=
  if a.synt = .expr then expandR L filename layers { a with tree := t }
  else if t.isK .Assign then
    match attr t .value with
    | .error e => .raise e
    | .ok v => followed (setValue t) (expandR L filename layers { a with tree := v, optionalVars := some .none })
  else .raise (.py .assertionError)

/-- `expand1rq`, `expandrq`, metatools.py:288-360. -/
def expandRq (L : Lib σ) (filename : String) (layers : Layers) (a : MArgs) : Prog (User σ) :=
  if a.synt = .expr ∨ a.synt = .block then
    followed (fun
      | .val t => expandQuoted L filename layers a t
      | .other => .raise (.py .attributeError)) (quote L filename a)
  else .raise (.py .syntaxError)

/-- `runtime_expand1(bindings, filename, tree)`, `runtime_expand(bindings, filename, tree)`, metatools.py:62-81, in a process
whose global bindings and other state are `w`. -/
def runtimeExpand (E : Env υ) (n : Nat) (layers : Layers) (bindings : Dict String Nat) (tree : Val) (w : World υ) :
    Option (Except Exc Val × World υ) :=
  match layers with
  | .one =>
    match visitAs E n .once tree (init { w with locals := bindings }) with
    | none => none
    | some (.error e, s) => some (.error e, { s.world with locals := w.locals })
    | some (.ok t, s) => some (attr t .body, { s.world with locals := w.locals })
  | .all =>
    match visitAs E n .recursively tree (init { w with locals := bindings }) with
    | none => none
    | some (r, s) => some (r, { s.world with locals := w.locals })

end Mcpyrate.ExpandRuntime
