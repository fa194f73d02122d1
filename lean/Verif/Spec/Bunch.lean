import Verif.Model.Bunch
/-
Specification of `Bunch`: each Bunch is a plain dictionary *value* of its own; an operation acts on
that value like the corresponding `dict` method.  There are no references and no sharing.
-/
namespace Mcpyrate.Bunch
open Py

variable {ν : Type} [DecidableEq ν]

/-- The plain-dictionary method an operation on a single Bunch amounts to: new contents and answer. -/
def dictMethod (reserved : List String) (d : Data ν) : Op ν → Data ν × Ans ν
  | .getattr _ name =>
    if name ∈ reserved then (d, .method name)
    else (d, (Dict.get d (.str name)).elim .keyError .val)
  | .setattr _ name v =>
    if name ∈ reserved then (d, .attributeError) else (Dict.set d (.str name) v, .unit)
  | .delattr _ name =>
    if (Dict.get d (.str name)).isSome then (Dict.del d (.str name), .unit) else (d, .keyError)
  | .contains _ k => (d, .bool (Dict.get d k).isSome)
  | .len _ => (d, .nat d.length)
  | .iter _ => (d, .keys (Dict.keys d))
  | .getitem _ k => (d, (Dict.get d k).elim .keyError .val)
  | .setitem _ k v => (Dict.set d k v, .unit)
  | .delitem _ k => if (Dict.get d k).isSome then (Dict.del d k, .unit) else (d, .keyError)
  | .get _ k dflt => (d, ((Dict.get d k).or dflt).elim .none .val)
  | .pop _ k dflt => (Dict.del d k, ((Dict.get d k).or dflt).elim .keyError .val)
  | .popitem _ => match d.getLast? with
    | some (k, v) => (Dict.del d k, .pair k v)
    | none => (d, .keyError)
  | .clear _ => ([], .unit)
  | .update _ kw => if "self" ∈ Dict.keys kw then (d, .typeError)
                    else (Dict.update d kw.toData, .unit)
  | .setdefault _ k v => match Dict.get d k with
    | some w => (d, .val w)
    | none => (Dict.set d k v, .val v)
  | _ => (d, .unit)

/-- The handle an operation acts on, for operations on one existing Bunch. -/
def target : Op ν → Option Nat
  | .getattr h _ | .setattr h _ _ | .delattr h _ | .contains h _ | .len h | .iter h
  | .getitem h _ | .setitem h _ _ | .delitem h _ | .get h _ _ | .pop h _ _ | .popitem h
  | .clear h | .update h _ | .setdefault h _ _ => some h
  | .new _ | .copy _ | .replace _ _ | .eq _ _ => none

/-- Abstract machine: a list of dictionary values. -/
def specStep (reserved : List String) (m : List (Data ν)) (o : Op ν) :
    Option (List (Data ν) × Ans ν) :=
  match target o with
  | some h => (m[h]?).map fun d => let r := dictMethod reserved d o; (m.set h r.1, r.2)
  | none =>
    match o with
    | .new kw => if "self" ∈ Dict.keys kw then some (m, .typeError)
                 else some (m ++ [kw.toData], .bunch m.length)
    | .copy h => (m[h]?).map fun d =>
        if kwOk d then (m ++ [d], .bunch m.length) else (m, .typeError)
    | .replace h o => match m[h]?, m[o]? with
        | some _, some d => if kwOk d then some (m.set h d, .unit) else some (m, .typeError)
        | _, _ => none
    | .eq h o => match m[h]?, m[o]? with
        | some d, some e => some (m, .bool (dictEq d e))
        | _, _ => none
    | _ => none

def specRun (reserved : List String) : List (Data ν) → List (Op ν) → Option (List (Data ν) × List (Ans ν))
  | m, [] => some (m, [])
  | m, o :: os =>
    match specStep reserved m o with
    | none => none
    | some (m', a) =>
      match specRun reserved m' os with
      | none => none
      | some (m'', as) => some (m'', a :: as)

/-- What the heap looks like from outside: the contents of each Bunch. -/
def abs (s : Heap ν) : List (Data ν) := s.bunches.map fun r => (s.cells[r]?).getD []

/-- No two Bunches share their data, and all references are valid. -/
def Unshared (s : Heap ν) : Prop := s.bunches.Nodup ∧ ∀ r ∈ s.bunches, r < s.cells.length

/-- The keyword names in the call are distinct, as Python's syntax demands. -/
def callable : Op ν → Prop
  | .new kw | .update _ kw => Dict.WF kw
  | _ => True

/-- The names of the mapping API and of the two instance attributes. -/
def apiNames : List String :=
  ["_data", "_reserved_names", "clear", "copy", "get", "items", "keys", "pop", "popitem", "replace", "setdefault",
   "update", "values"]

end Mcpyrate.Bunch
