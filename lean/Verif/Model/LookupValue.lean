import Verif.Py.Dict
import Verif.Py.Err
import Verif.Py.Obj
/-
Model of `lookup_value` with its cache, quotes.py:307-339, in a process where `bytes` objects are created and freed.
-/
namespace Mcpyrate.LookupValue
open Py

/-- The process: the live `bytes` objects by `id`, and `_lookup_cache`, quotes.py:307.  (The values are immutable here; the
cache hands out the same object each time.) -/
structure State where
  heap : Dict Nat (List Nat)
  cache : Dict (String × Nat) Obj

/-- What can happen.  An object gets an `id` that no live object has, which may have belonged to a freed object. -/
inductive Event where
  | alloc (id : Nat) (b : List Nat)
  | free (id : Nat)
  /-- `lookup_value((name, x))`, where `x` is the live object with this `id`, or `None` -/
  | lookup (name : String) (x : Option Nat)
  deriving DecidableEq, Repr

/-- `lookup_value(key)`, quotes.py:330-339, given `pickle.loads`; the caller holds a reference to the frozen value, so it is
live (`none` if not: such a call cannot be made). -/
def lookupValue (unpickle : List Nat → Except Err Obj) (s : State) (name : String) (x : Option Nat) :
    Option (Except Err Obj × State) :=
  match x with
  | none => some (.error .valueError, s)
  | some i =>
    match s.heap.get i with
    | none => none
    | some b =>
      match s.cache.get (name, i) with
      | some v => some (.ok v, s)
      | none =>
        match unpickle b with
        | .error e => some (.error e, s)
        | .ok v => some (.ok v, { s with cache := s.cache.set (name, i) v })

/-- One event (`none`: it is not possible in this state), and the result if it is a lookup. -/
def step (unpickle : List Nat → Except Err Obj) (s : State) : Event → Option (Option (Except Err Obj) × State)
  | .alloc i b =>
    match s.heap.get i with
    | some _ => none
    | none => some (none, { s with heap := s.heap.set i b })
  | .free i =>
    match s.heap.get i with
    | none => none
    | some _ => some (none, { s with heap := s.heap.del i })
  | .lookup n x =>
    match lookupValue unpickle s n x with
    | none => none
    | some (r, s') => some (some r, s')

/-- A history of events. -/
def run (unpickle : List Nat → Except Err Obj) : State → List Event → Option State
  | s, [] => some s
  | s, e :: es =>
    match step unpickle s e with
    | none => none
    | some (_, s') => run unpickle s' es

/-- A process that has just started. -/
def State.start : State := ⟨[], []⟩

end Mcpyrate.LookupValue
