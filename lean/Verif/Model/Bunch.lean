import Verif.Py.Dict
/-
Model of `mcpyrate/bunch.py`: `Bunch`, `bunchify`.

Dictionaries are mutable objects, so there is a heap of dictionary cells; a `Bunch` object holds a
reference to the cell that is its `_data`.
-/
namespace Mcpyrate.Bunch
open Py

/-- Dictionary keys: strings or anything else hashable (a `Bunch` accepts any key in item access). -/
inductive Key where
  | str (s : String)
  | other (n : Nat)
  deriving DecidableEq, Repr

abbrev Data (ν : Type) := Dict Key ν

/-- Keyword arguments of a call: distinct names with values. -/
abbrev Kw (ν : Type) := Dict String ν

def Kw.toData {ν} (kw : Kw ν) : Data ν := kw.map fun (k, v) => (Key.str k, v)

/-- All objects: dictionary cells, and for each `Bunch` object the index of its `_data` cell. -/
structure Heap (ν : Type) where
  cells : List (Data ν)
  bunches : List Nat
  deriving DecidableEq, Repr

/-- What an operation answers. -/
inductive Ans (ν : Type) where
  | unit
  | val (v : ν)
  | none                            -- Python `None`
  | bool (b : Bool)
  | nat (n : Nat)
  | keys (ks : List Key)
  | pair (k : Key) (v : ν)
  | bunch (h : Nat)                 -- a new Bunch object
  | method (name : String)          -- a bound method (attribute access to a reserved name)
  | keyError | typeError | attributeError | valueError
  deriving DecidableEq, Repr

/-- Operations on Bunch number `h`. -/
inductive Op (ν : Type) where
  | new (kw : Kw ν)
  | copy (h : Nat)
  | replace (h other : Nat)
  | getattr (h : Nat) (name : String)
  | setattr (h : Nat) (name : String) (v : ν)
  | delattr (h : Nat) (name : String)
  | contains (h : Nat) (k : Key)
  | len (h : Nat)
  | iter (h : Nat)
  | getitem (h : Nat) (k : Key)
  | setitem (h : Nat) (k : Key) (v : ν)
  | delitem (h : Nat) (k : Key)
  | get (h : Nat) (k : Key) (default : Option ν)
  | pop (h : Nat) (k : Key) (default : Option ν)
  | popitem (h : Nat)
  | clear (h : Nat)
  | update (h : Nat) (kw : Kw ν)
  | setdefault (h : Nat) (k : Key) (v : ν)
  | eq (h other : Nat)

/-- Names found by normal attribute lookup on a Bunch: `dir(self)` in `__init__`
(bunch.py:22-23), i.e. the methods of the class and of `object`, and the two instance attributes.
Which dunder names `object` has depends on the Python version; the list is a parameter of the
model (`reserved`), this is the part defined in bunch.py. -/
def ownNames : List String :=
  ["copy", "replace", "keys", "items", "values", "get", "pop", "popitem", "clear", "update",
   "setdefault", "_data", "_reserved_names"]

section
variable {ν : Type} [DecidableEq ν]

/-- The data of Bunch `h`. -/
def dataOf (s : Heap ν) (h : Nat) : Option (Nat × Data ν) :=
  match s.bunches[h]? with
  | none => none
  | some r =>
    match s.cells[r]? with
    | none => none
    | some d => some (r, d)

/-- Allocate a Bunch with new data. -/
def alloc (s : Heap ν) (d : Data ν) : Heap ν × Nat :=
  ({ cells := s.cells ++ [d], bunches := s.bunches ++ [s.cells.length] }, s.bunches.length)

/-- `{k: v for …}` expanded with `**` into `Bunch(**…)`, bunch.py:27: every key must be a string,
and the name `self` clashes with the method's own parameter; both raise TypeError. -/
def kwOk (d : Data ν) : Bool :=
  d.all fun (k, _) => match k with | .str s => s != "self" | .other _ => false

/-- Same keys with equal values (`dict.__eq__`), bunch.py:68-71 (comparison of two Bunches ends in
comparing the two dictionaries). -/
def dictEq (a b : Data ν) : Bool :=
  a.length == b.length && a.all fun (k, v) => Dict.get b k == some v

/-- Store a new value in cell `r`. -/
def put (s : Heap ν) (r : Nat) (d : Data ν) : Heap ν := { s with cells := s.cells.set r d }

/-- One operation, bunch.py:20-83.  `none`: the handle does not exist (not a Python situation). -/
def step (reserved : List String) (s : Heap ν) : Op ν → Option (Heap ν × Ans ν)
  -- __init__, 20-23
  | .new kw => if "self" ∈ Dict.keys kw then some (s, .typeError)
               else let (s', h) := alloc s kw.toData; some (s', .bunch h)
  -- copy, 25-27
  | .copy h =>
    match dataOf s h with
    | none => none
    | some (_, d) => if kwOk d then let (s', h') := alloc s d; some (s', .bunch h')
                     else some (s, .typeError)
  -- replace, 28-32 (`other.copy()._data`: the temporary Bunch is dropped, its cell is kept)
  | .replace h o =>
    match dataOf s h, dataOf s o with
    | some _, some (_, d) =>
      if kwOk d then
        some ({ cells := s.cells ++ [d], bunches := s.bunches.set h s.cells.length }, .unit)
      else some (s, .typeError)
    | _, _ => none
  -- attribute read: normal lookup, then __getattr__, 34-35
  | .getattr h name =>
    match dataOf s h with
    | none => none
    | some (_, d) =>
      if name ∈ reserved then some (s, .method name)
      else match Dict.get d (.str name) with
        | some v => some (s, .val v)
        | none => some (s, .keyError)
  -- __setattr__, 36-41 (assignment to the private `_data`, `_reserved_names` is not covered)
  | .setattr h name v =>
    match dataOf s h with
    | none => none
    | some (r, d) =>
      if name ∈ reserved then some (s, .attributeError)
      else some (put s r (Dict.set d (.str name) v), .unit)
  -- __delattr__, 42-43
  | .delattr h name =>
    match dataOf s h with
    | none => none
    | some (r, d) =>
      match Dict.get d (.str name) with
      | some _ => some (put s r (Dict.del d (.str name)), .unit)
      | none => some (s, .keyError)
  -- __contains__, 46-47
  | .contains h k =>
    match dataOf s h with
    | none => none
    | some (_, d) => some (s, .bool (Dict.get d k).isSome)
  -- __len__, 50-51
  | .len h =>
    match dataOf s h with
    | none => none
    | some (_, d) => some (s, .nat d.length)
  -- __iter__, 48-49; keys, 60-61
  | .iter h =>
    match dataOf s h with
    | none => none
    | some (_, d) => some (s, .keys (Dict.keys d))
  -- __getitem__, 54-55
  | .getitem h k =>
    match dataOf s h with
    | none => none
    | some (_, d) =>
      match Dict.get d k with
      | some v => some (s, .val v)
      | none => some (s, .keyError)
  -- __setitem__, 56-57
  | .setitem h k v =>
    match dataOf s h with
    | none => none
    | some (r, d) => some (put s r (Dict.set d k v), .unit)
  -- __delitem__, 58-59
  | .delitem h k =>
    match dataOf s h with
    | none => none
    | some (r, d) =>
      match Dict.get d k with
      | some _ => some (put s r (Dict.del d k), .unit)
      | none => some (s, .keyError)
  -- get, 66-67
  | .get h k dflt =>
    match dataOf s h with
    | none => none
    | some (_, d) =>
      match Dict.get d k with
      | some v => some (s, .val v)
      | none => match dflt with
        | some v => some (s, .val v)
        | none => some (s, .none)
  -- pop, 74-75
  | .pop h k dflt =>
    match dataOf s h with
    | none => none
    | some (r, d) =>
      match Dict.get d k with
      | some v => some (put s r (Dict.del d k), .val v)
      | none => match dflt with
        | some v => some (s, .val v)
        | none => some (s, .keyError)
  -- popitem, 76-77: the last inserted item
  | .popitem h =>
    match dataOf s h with
    | none => none
    | some (r, d) =>
      match d.getLast? with
      | some (k, v) => some (put s r (Dict.del d k), .pair k v)
      | none => some (s, .keyError)
  -- clear, 78-79
  | .clear h =>
    match dataOf s h with
    | none => none
    | some (r, _) => some (put s r [], .unit)
  -- update, 80-81
  | .update h kw =>
    match dataOf s h with
    | none => none
    | some (r, d) =>
      if "self" ∈ Dict.keys kw then some (s, .typeError)
      else some (put s r (Dict.update d kw.toData), .unit)
  -- setdefault, 82-83 (with an explicit default)
  | .setdefault h k v =>
    match dataOf s h with
    | none => none
    | some (r, d) =>
      match Dict.get d k with
      | some w => some (s, .val w)
      | none => some (put s r (Dict.set d k v), .val v)
  -- __eq__, 68-69
  | .eq h o =>
    match dataOf s h, dataOf s o with
    | some (_, d), some (_, e) => some (s, .bool (dictEq d e))
    | _, _ => none

/-- A sequence of operations with the answers. -/
def run (reserved : List String) : Heap ν → List (Op ν) → Option (Heap ν × List (Ans ν))
  | s, [] => some (s, [])
  | s, o :: os =>
    match step reserved s o with
    | none => none
    | some (s', a) =>
      match run reserved s' os with
      | none => none
      | some (s'', as) => some (s'', a :: as)

/-- `bunchify(d)` for an existing dictionary cell, bunch.py:98-134: no copy; the new Bunch refers to
the same cell.  `isidentifier` is a parameter (Unicode tables).  Non-string keys have no
`isidentifier` method: AttributeError. -/
def bunchify (isidentifier : String → Bool) (s : Heap ν) (cell : Nat) : Option (Heap ν × Ans ν) :=
  match s.cells[cell]? with
  | none => none
  | some d =>
    if d.any (fun (k, _) => match k with | .other _ => true | .str _ => false) then
      some (s, .attributeError)
    else if d.all (fun (k, _) => match k with | .str x => isidentifier x | .other _ => false) then
      some ({ s with bunches := s.bunches ++ [cell] }, .bunch s.bunches.length)
    else some (s, .valueError)

end
end Mcpyrate.Bunch
