import Verif.Model.Modules
import Verif.Model.Expander
import Verif.Model.FutureImports
/-
Model of the multi-phase compiler, multiphase.py.
-/
namespace Mcpyrate.Multiphase
open Py Modules

/-- `destructure_candidate` raises only AttributeError and TypeError for a `Subscript`. -/
def lowerExc {α : Type} : Except Expander.Exc α → Except Err α
  | .ok a => .ok a
  | .error (.py e) => .error e
  | .error _ => .error .attributeError

def attr (t : Val) (f : F) : Except Err Val :=
  match t.get? f with
  | some v => .ok v
  | none => .error .attributeError

/-- The value of the macro argument, multiphase.py:60-71: a positive int.  A bool is an int. -/
def literal (arg : Val) : Except Err (Option Nat) :=
  if arg.isK .Constant then
    match arg.get? .value with
    | none => .error .attributeError
    | some (.const (.int n)) => .ok (if n < 1 then none else some n.toNat)
    | some (.const (.bool true)) => .ok (some 1)
    | some _ => .ok none
  else .ok none

/-- `iswithphase(stmt)`, multiphase.py:36-71; `none` is False. -/
def iswithphase (t : Val) : Except Err (Option Nat) :=
  if t.isK .With then do
    match ← attr t .items with
    | .list [item] =>
      if (item.get? .optional_vars).getD .none != .none then return none
      else do
        let candidate ← attr item .context_expr
        if candidate.isK .Subscript then do
          match ← lowerExc (Expander.destructure true candidate) with
          | some (name, args) =>
            if name != "phase" then return none
            else match args with
              | [arg] => literal arg
              | _ => return none
          | none => return none
        else return none
    | .list _ => return none
    | _ => .error .typeError
  else return none

/-- `macroarg.value -= 1` in multiphase.py:109-117: only if the slice is itself a `Constant`. -/
def lower (t : Val) : Val :=
  match t with
  | .node c l fs =>
    match t.get? .items with
    | some (.list (.node c1 l1 fs1 :: items)) =>
      match (Val.node c1 l1 fs1).get? .context_expr with
      | some (.node c2 l2 fs2) =>
        match (Val.node c2 l2 fs2).get? .slice with
        | some (.node c3 l3 fs3) =>
          if (Val.node c3 l3 fs3).isK .Constant then
            match (Val.node c3 l3 fs3).get? .value with
            | some (.const (.int n)) =>
              .node c l (setF fs .items (.list (.node c1 l1 (setF fs1 .context_expr
                (.node c2 l2 (setF fs2 .slice (.node c3 l3 (setF fs3 .value (.int (n - 1))))))) :: items)))
            | _ => t
          else t
        | _ => t
      | _ => t
    | _ => t
  | t => t

/-- The body of a `with` statement. -/
def bodyOf (t : Val) : Except Err (List Val) :=
  match t.get? .body with
  | some (.list b) => .ok b
  | some _ => .error .typeError
  | none => .error .attributeError

/-- `extract_phase(tree, phase=k)` for `k ≥ 1`, multiphase.py:73-138: the code of this phase, and the
body that remains.  Trees are values, so that nothing is shared between the two. -/
def extractPhase (k : Nat) : List Val → Except Err (List Val × List Val)
  | [] => .ok ([], [])
  | t :: ts => do
    let p ← iswithphase t
    if p = some k then do
      let b ← bodyOf t
      let (this, rest) ← extractPhase k ts
      return (b ++ this, if k = 1 then b ++ rest else lower t :: rest)
    else do
      let (this, rest) ← extractPhase k ts
      return (if FutureImports.isfutureimport t then t :: this else this, t :: rest)

/-- `detect_highest_phase(tree)`, multiphase.py:250-264: None for an empty body; False counts as 0. -/
def detectHighest : List Val → Option Nat → Except Err (Option Nat)
  | [], m => .ok m
  | t :: ts, m => do
    let n := (← iswithphase t).getD 0
    detectHighest ts (match m with
      | none => some n
      | some m => some (if n > m then n else m))

/-- `__phase__ = k`, multiphase.py:383-386. -/
def assignment (k : Nat) : Val :=
  .node (.py .Assign) { lineno := .int 1, colOffset := .int 1 }
    [(.targets, .list [.node (.py .Name) { lineno := .int 1, colOffset := .int 1 }
      [(.id, .str "__phase__"), (.ctx, mk .Store [])]]),
     (.value, .node (.py .Constant) { lineno := .int 1, colOffset := .int 13 } [(.value, .int k)])]

/-- The compiler's `run` and `singlephase_expand`, on module bodies.  They may do anything to the
interpreter and to the rest of the world, `τ`. -/
structure Compiler (τ : Type) where
  run : List Val → Nat → Sys × τ → Except Err Unit × (Sys × τ)
  expand : List Val → Sys × τ → Except Err (List Val) × (Sys × τ)

variable {τ : Type}

/-- The loop of multiphase.py:377-403, from phase `k` down.  The result is `expansion`; `none` if it
was never assigned. -/
def loop (C : Compiler τ) (module : Nat) : Nat → List Val → Sys × τ → Except Err (Option (List Val)) × (Sys × τ)
  | 0, body, s =>
    if body = [] then (.ok none, s)
    else
      match FutureImports.inject (assignment 0) (.list body) with
      | .error e => (.error e, s)
      | .ok b =>
        match C.expand b s with
        | (.error e, s) => (.error e, s)
        | (.ok r, s) => (.ok (some r), s)
  | k + 1, body, s =>
    match extractPhase (k + 1) body with
    | .error e => (.error e, s)
    | .ok (this, rest) =>
      if this = [] then loop C module k rest s
      else
        match FutureImports.inject (assignment (k + 1)) (.list this) with
        | .error e => (.error e, s)
        | .ok b =>
          match C.run b module s with
          | (.error e, s) => (.error e, s)
          | (.ok (), s) => loop C module k rest s

/-- multiphase.py:405-412: restore `sys.modules`. -/
def restore (P : Host) (self : Str) (original : Option Obj) (s : Sys) : Sys :=
  match original with
  | some m => if P.bool m then { s with modules := s.modules.set self m } else { s with modules := s.modules.del self }
  | none => { s with modules := s.modules.del self }

/-- `multiphase_expand(tree, filename=…, self_module=…)`, multiphase.py:321-414, on the body of the
module.  The debug output is left out. -/
def multiphaseExpand (P : Host) (C : Compiler τ) (self : Str) (filename : Arg) (uuid : Str)
    (body : List Val) (s : Sys × τ) : Except Err (List Val) × (Sys × τ) :=
  match detectHighest body none with
  | .error e => (.error e, s)
  | .ok n =>
    let original := s.1.modules.get self
    match createModule P (.str self) filename false uuid s.1 with
    | (.error e, s1) => (.error e, (s1, s.2))
    | (.ok module, s1) =>
      match n with
      | none => (.error .typeError, (s1, s.2))            -- `range(None, -1, -1)`
      | some n =>
        match loop C module n body (s1, s.2) with
        | (.error e, s2) => (.error e, s2)
        | (.ok expansion, s2) =>
          let s3 := (restore P self original s2.1, s2.2)
          match expansion with
          | some e => (.ok e, s3)
          | none => (.error .nameError, s3)               -- UnboundLocalError

end Mcpyrate.Multiphase
