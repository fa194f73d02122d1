import Verif.Model.Expander
import Verif.Model.Utils
/-
Model of the macro `expand_first`, mcpyrate/metatools.py:457-527.

Simplification: the new expanders get a copy of the bindings (`expander.bindings` is a live view; it makes a difference
only if a macro changes bindings in the meantime).
-/
namespace Mcpyrate.ExpandFirst
open Py Expander

variable {υ : Type}

/-- `expander.bindings` as a dictionary: a ChainMap of the local and the global bindings, core.py:98. -/
def allBindings (w : World υ) : Dict String Nat := Dict.update w.globals w.locals

/-- The check `name_node.id not in expander.bindings` and the look-up `expander.bindings[name_node.id]` for one argument,
metatools.py:516, 523.  A missing `id` raises AttributeError. -/
def lookUp (w : World υ) (t : Val) : Except Exc (Option Nat) := do
  let i ← attr t .id
  return match asName i with
    | some k => isbound w k
    | none => none

/-- All arguments looked up. -/
def lookUpAll (w : World υ) : List Val → Except Exc (List (Option Nat))
  | [] => .ok []
  | t :: ts => do
    let x ← lookUp w t
    let xs ← lookUpAll w ts
    return x :: xs

/-- The macro functions for the expanded arguments, metatools.py:508-523: all must be names, and all must be bound.  (The
messages are left out.) -/
def functions (w : World υ) (args : List Val) : Except Exc (List Nat) :=
  if args.any (fun t => !t.isK .Name) then .error (.py .syntaxError)
  else do
    let xs ← lookUpAll w args
    if xs.any Option.isNone then .error (.py .syntaxError) else return xs.filterMap id

/-- Return what a visit gave, or pass the exception on. -/
def give : Except Exc Val → Prog υ
  | .ok v => .ret (.val v)
  | .error e => .raise e

/-- The part after the arguments have been expanded, metatools.py:508-527.  `visit` of a list can give `None`, over which
one cannot iterate. -/
def expandBody (a : MArgs) (args : Val) : Prog υ :=
  match args with
  | .list xs => .get fun _ w =>
    match functions w xs with
    | .error e => .raise e
    | .ok fs => .visitNew (ExtractBindings.extractBindings (allBindings w) fs) a.tree give
  | _ => .raise (.py .typeError)

/-- `expand_first`, metatools.py:457-527. -/
def expandFirst (a : MArgs) : Prog υ :=
  if a.synt ≠ .block then .raise (.py .syntaxError)
  else
    match a.optionalVars with
    | none => .raise (.py .keyError)
    | some v =>
      if !v.isNone then .raise (.py .syntaxError)
      else
        match a.args with
        | none => .raise (.py .syntaxError)
        | some [] => .raise (.py .syntaxError)
        | some (x :: xs) => .get fun _ w => .visitNew (allBindings w) (.list (x :: xs)) fun
          | .error e => .raise e
          | .ok args => expandBody a args

end Mcpyrate.ExpandFirst
