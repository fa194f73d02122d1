import Verif.Model.LookupValue
/-
Specification for C38.
-/
namespace Mcpyrate.LookupValue
open Py

/-- What `lookup_value` should return for a key with this frozen value. -/
def expected (unpickle : List Nat → Except Err Obj) : Option (List Nat) → Except Err Obj
  | none => .error .valueError
  | some b => unpickle b

/-- The frozen value in the key. -/
def contents (s : State) : Option Nat → Option (List Nat)
  | none => none
  | some i => s.heap.get i

/-- No object that has been looked up is freed. -/
def keepsAlive : List Nat → List Event → Bool
  | _, [] => true
  | seen, .lookup _ (some i) :: es => keepsAlive (i :: seen) es
  | seen, .free i :: es => !seen.contains i && keepsAlive seen es
  | seen, _ :: es => keepsAlive seen es

/-- No `id` is used for objects with different contents: `seen` are the objects so far. -/
def noReuse : List (Nat × List Nat) → List Event → Bool
  | _, [] => true
  | seen, .alloc i b :: es => seen.all (fun p => p.1 != i || p.2 == b) && noReuse ((i, b) :: seen) es
  | seen, _ :: es => noReuse seen es

end Mcpyrate.LookupValue
