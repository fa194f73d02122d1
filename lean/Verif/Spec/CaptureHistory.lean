import Verif.Spec.Captures
/-
Specification for C37: histories of captures and lookups of macros.
-/
namespace Mcpyrate.Quotes
open Py
variable {σ : Type}

/-- `s'` is a possible later state of the process: no name known to `gensym` is forgotten, and no name bound globally is
rebound. -/
structure Later (s s' : St σ) : Prop where
  names : ∀ n ∈ s.gensym.previous, n ∈ s'.gensym.previous
  bound : ∀ u m, s.globals.get u = some m → s'.globals.get u = some m

/-- Whatever `m` does, also when it raises, ends in a later state. -/
def Forward {α : Type} (m : Q σ α) : Prop := ∀ s r s', m s = some (r, s') → Later s s'

/-- User code and the interpreter do not touch the private state of the library. -/
structure Tame (H : Host σ) : Prop where
  name : ∀ n, Forward (H.name n)
  attr : ∀ x a, Forward (H.attr x a)
  call : ∀ f as ks, Forward (H.call f as ks)
  expr : ∀ x, Forward (H.expr x)

/-- A capture of a macro: its code is `lookup_macro((name, unique, frozen))`. -/
structure MacroKey where
  name : String
  unique : String
  frozen : List Nat
  deriving DecidableEq, Repr

/-- An event in the life of a process. -/
inductive Event where
  /-- `capture_macro(f, name)`, which `q` calls for `h[name]` -/
  | capture (f : Obj) (name : String)
  /-- `capture_as_macro(f)`, where `name` is `f.__name__` -/
  | captureAs (f : Obj) (name : String)
  /-- a capture made by another process comes in with a module that is loaded from a bytecode cache -/
  | load (key : MacroKey)
  /-- the code of capture number `i` runs -/
  | lookup (i : Nat)
  /-- somebody calls `gensym(name)` -/
  | gensym (name : String)

/-- The state of the process, the captures present in it, and those that have been looked up with success. -/
structure Process (σ : Type) where
  st : St σ
  captures : List MacroKey
  looked : List MacroKey

/-- The code of a capture. -/
def MacroKey.code (k : MacroKey) : Obj :=
  callNode (quotesAttr "lookup_macro")
    [tupleNode [constantNode (.str k.name), constantNode (.str k.unique), constantNode (.bytes k.frozen)]] []

/-- The capture that a piece of code is, as `is_captured_macro` sees it. -/
def keyOf (code : Obj) : Option MacroKey :=
  match isCapturedMacro code with
  | .ok (some (n, u, b)) => some ⟨n, u, b⟩
  | _ => none

/-- One event.  What raises has no effect on the lists of captures; the history goes on. `none`: does not return. -/
def step (H : Host σ) (p : Process σ) : Event → Option (Process σ)
  | .capture f n =>
    match captureMacro H f n p.st with
    | none => none
    | some (.ok code, s) => some { p with st := s, captures := p.captures ++ (keyOf code).toList }
    | some (.error _, s) => some { p with st := s }
  | .captureAs f n =>
    match captureAsMacro H f n p.st with
    | none => none
    | some (.ok x, s) =>
      match x.get? .id, H.pickle f with
      | some (.str u), .ok b =>
        some { st := s, captures := p.captures ++ [⟨n, u, b⟩], looked := p.looked ++ [⟨n, u, b⟩] }
      | _, _ => some { p with st := s }
    | some (.error _, s) => some { p with st := s }
  | .load k => some { p with captures := p.captures ++ [k] }
  | .lookup i =>
    match p.captures[i]? with
    | none => some p
    | some k =>
      match eval H k.code p.st with
      | none => none
      | some (.ok _, s) => some { p with st := s, looked := p.looked ++ [k] }
      | some (.error _, s) => some { p with st := s }
  | .gensym n =>
    match gensymQ n p.st with
    | none => none
    | some (_, s) => some { p with st := s }

def history (H : Host σ) : Process σ → List Event → Option (Process σ)
  | p, [] => some p
  | p, e :: es =>
    match step H p e with
    | none => none
    | some p' => history H p' es

/-- The captures that come from other processes. -/
def loaded : List Event → List MacroKey
  | [] => []
  | .load k :: es => k :: loaded es
  | _ :: es => loaded es

/-- `expander.isbound(name)` with these local bindings, core.py:349-354 and 98. -/
def isboundIn (locals_ : Dict String Obj) (s : St σ) (name : String) : Option Obj :=
  (locals_.get name).or (s.globals.get name)

end Mcpyrate.Quotes
