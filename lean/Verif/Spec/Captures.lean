import Verif.Spec.Quotes
import Verif.Model.Captures
/-
Specification for the recognisers of hygienic captures (C36).
-/
namespace Mcpyrate.Quotes
open Py

/-- `x` is the expression `s`, a name. -/
def IsName (x : Obj) (s : String) : Prop := x.isK .Name = true ∧ x.get? .id = some (.str s)

/-- `x` is the constant `c`. -/
def IsConst (x : Obj) (c : Const) : Prop := x.isK .Constant = true ∧ x.get? .value = some (.const c)

/-- `x` is the expression `v.a`. -/
def IsAttribute (x v : Obj) (a : String) : Prop :=
  x.isK .Attribute = true ∧ x.get? .value = some v ∧ x.get? .attr = some (.str a)

/-- `x` is a call of `f` with these positional arguments. -/
def IsCall (x f : Obj) (args : List Obj) : Prop :=
  x.isK .Call = true ∧ x.get? .func = some f ∧ x.get? .args = some (.list args)

/-- `x` is `mcpyrate.quotes` or `__import__("mcpyrate.quotes", …).quotes`. -/
def IsQuotes (x : Obj) : Prop := ∃ m, IsAttribute x m "quotes" ∧
  (IsName m "mcpyrate" ∨ ∃ f a as, IsCall m f (a :: as) ∧ IsName f "__import__" ∧ IsConst a (.str "mcpyrate.quotes"))

/-- `x` is a call of the function `fn` of `mcpyrate.quotes`. -/
def CallsQuotes (x : Obj) (fn : String) (args : List Obj) : Prop :=
  ∃ f r, IsCall x f args ∧ IsAttribute f r fn ∧ IsQuotes r

/-- `x` is `capture_value(…, name)`, a capture that has not taken place yet. -/
def PendingValue (x : Obj) (name : String) : Prop :=
  ∃ v n as, CallsQuotes x "capture_value" (v :: n :: as) ∧ IsConst n (.str name)

/-- `x` is `lookup_value((name, frozen))`. -/
def FrozenValue (x : Obj) (name : String) (frozen : List Nat) : Prop :=
  ∃ key as n v, CallsQuotes x "lookup_value" (key :: as) ∧ key.get? .elts = some (.list [n, v]) ∧
    IsConst n (.str name) ∧ IsConst v (.bytes frozen)

/-- `x` is `lookup_macro((name, unique, frozen))`. -/
def FrozenMacro (x : Obj) (name unique : String) (frozen : List Nat) : Prop :=
  ∃ key as n u v, CallsQuotes x "lookup_macro" (key :: as) ∧ key.get? .elts = some (.list [n, u, v]) ∧
    IsConst n (.str name) ∧ IsConst u (.str unique) ∧ IsConst v (.bytes frozen)

mutual
/-- The tree without source locations and `ctx` fields. -/
def bare : Obj → Obj
  | .list xs => .list (bareL xs)
  | .tuple xs => .tuple (bareL xs)
  | .node c _ fs => .node c {} (bareF fs)
  | x => x
def bareL : List Obj → List Obj
  | [] => []
  | x :: xs => bare x :: bareL xs
def bareF : List (F × Obj) → List (F × Obj)
  | [] => []
  | (f, x) :: r => if f = .ctx then bareF r else (f, bare x) :: bareF r
end

/-- The builtins that a captured value needs where it is looked up. -/
def Builtins (H : Host σ) : Prop :=
  H.name "__import__" = pure (.ref ["__import__"]) ∧
  ∃ g d, H.name "globals" = pure g ∧ (∀ p, g ≠ .ref p) ∧ H.call g [] [] = pure d

end Mcpyrate.Quotes
