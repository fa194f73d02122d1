import Verif.Spec.Quotes
/-
A small host for examples: a few variables; values are pickled by number.
-/
namespace Mcpyrate.Quotes.Ex
open Py Quotes

/-- `x` as the parser makes it. -/
def name (s : String) : Obj := .node (.py .Name) {} [(.id, .str s), (.ctx, .node (.py .Load) {} [])]

def at_ (line col : Nat) : Loc :=
  { lineno := .int line, colOffset := .int col, endLineno := .int line, endColOffset := .int (col + 1) }

def nameAt (line col : Nat) (s : String) : Obj :=
  .node (.py .Name) (at_ line col) [(.id, .str s), (.ctx, .node (.py .Load) {} [])]

/-- `x.a` -/
def attr (x : Obj) (a : String) : Obj :=
  .node (.py .Attribute) (at_ 1 0) [(.value, x), (.attr, .str a), (.ctx, .node (.py .Load) {} [])]

/-- `f(args)` -/
def call (f : Obj) (args : List Obj) : Obj :=
  .node (.py .Call) (at_ 1 0) [(.func, f), (.args, .list args), (.keywords, .list [])]

/-- Variables: `mcpyrate`, `three`, `tree`, `lst`, `value`, `text`; everything else is a NameError. -/
def host : Host Unit where
  name s :=
    if s = "mcpyrate" then pure (.ref ["mcpyrate"])
    else if s = "three" then pure (.const (.int 3))
    else if s = "tree" then pure (name "t")
    else if s = "lst" then pure (.list [name "a", name "b"])
    else if s = "value" then pure (.ext 7)
    else if s = "text" then pure (.str "kitty")
    else if s = "__import__" then pure (.ref ["__import__"])
    else if s = "globals" then pure (.ext 2)
    else M.throw .nameError
  attr x a := match x with
    | .ref p => pure (.ref (p ++ [a]))
    | _ => M.throw .attributeError
  call f _ kws := if f = .ext 2 then pure (.dict [] []) else pure (.tuple (kws.map (·.2)))
  expr _ := M.throw .runtimeError
  iter _ := .error .typeError
  mapping _ := .error .typeError
  mkDict ps := (ps.mapM fun (p : Option Obj × Obj) => p.1.map fun k => (k, p.2)).elim (.error .typeError) fun qs =>
    .ok (.dict (qs.map (·.1)) (qs.map (·.2)))
  mkSet xs := .ok (.set xs)
  callable x := match x with | .ext _ => true | _ => false
  pickle x := match x with | .ext n => .ok [n] | _ => .error .typeError
  unpickle b := match b with | [n] => .ok (.ext n) | _ => .error .valueError
  parse s := .ok (name s)
  moduleGlobals s := if s = "gensym" then some (.ext 1) else none
  tables := Scrub.asciiTables

def start : St Unit := { host := (), gensym := { previous := [], uuids := ["00000000000000000000000000000001".toList,
      "00000000000000000000000000000002".toList] }, globals := [] }

/-- The result of a run. -/
def result {α : Type} (m : Q Unit α) : Option (Except Err α) := (m start).map (·.1)

end Mcpyrate.Quotes.Ex
