import Verif.Model.Expander
/-
Model of the decorators `namemacro` and `parametricmacro` and of `isnamemacro`, `isparametricmacro`,
mcpyrate/expander.py:67-95, on the objects of a process: attributes, and where Python looks them up.
-/
namespace Mcpyrate.Declare
open Py

/-- The attributes `_isnamemacro` and `_isparametricmacro`, expander.py:75, 90. -/
inductive Mark where
  | name | param
  deriving DecidableEq, Repr

/-- A callable object, as far as attributes go: a function, or another object with a `__dict__` whose class never carries
a mark (such as a `functools.partial`); an object without a `__dict__` (such as a builtin function); a class, with its base
classes; an instance of a class; a bound method, with its `__func__`.  Simplified: no metaclasses, no `__slots__`, no
`__getattr__`, `__setattr__` of the user; no assignment to `__class__`, `__bases__` and the like, so that it is known when
an object is made where its attributes are looked up. -/
inductive Kind where
  | function
  | builtin
  | cls (bases : List Nat)
  | inst (c : Nat)
  | method (f : Nat)
  deriving DecidableEq, Repr

/-- An object: the object whose `__dict__` is seen as `o.__dict__`, if any, and the objects in whose `__dict__`
attributes of `o` are looked up. -/
structure Obj where
  kind : Kind
  dict : Option Nat
  places : List Nat
  deriving DecidableEq, Repr

/-- What user code does.  Objects are numbered by the `define`s, also those that fail. `wraps g w` is
`functools.wraps(g)(w)` of the standard library, which decorators of the user apply. -/
inductive Op where
  | define (k : Kind)
  | declare (m : Mark) (o : Nat)
  | wraps (g w : Nat)
  deriving DecidableEq, Repr

/-- The exceptions. -/
inductive Raised where
  | nameError | typeError | attributeError
  deriving DecidableEq, Repr

/-- The process: the objects (`none`: the definition failed), and which object has which mark in its own `__dict__`. -/
structure Heap where
  objs : List (Option Obj)
  own : Nat → Mark → Bool

/-- The object behind a number; NameError if there is none. -/
def Heap.get (h : Heap) (o : Nat) : Except Raised Obj :=
  match h.objs[o]? with
  | some (some x) => .ok x
  | _ => .error .nameError

/-- Objects that must be classes; TypeError if one is not. -/
def Heap.classes (h : Heap) : List Nat → Except Raised (List Obj)
  | [] => .ok []
  | c :: cs => do
    let x ← h.get c
    match x.kind with
    | .cls _ => return x :: (← h.classes cs)
    | _ => .error .typeError

/-- A new object with number `n`.  A bound method hands out the attributes of its function. -/
def Heap.make (h : Heap) (n : Nat) : Kind → Except Raised Obj
  | .function => .ok ⟨.function, some n, [n]⟩
  | .builtin => .ok ⟨.builtin, none, []⟩
  | .cls bs => do
    let xs ← h.classes bs
    return ⟨.cls bs, some n, n :: xs.flatMap (·.places)⟩
  | .inst c => do
    let xs ← h.classes [c]
    return ⟨.inst c, some n, n :: xs.flatMap (·.places)⟩
  | .method f => do
    let x ← h.get f
    return ⟨.method f, x.dict, x.places⟩

/-- Whether attributes can be set. -/
def Obj.settable (x : Obj) : Bool :=
  match x.kind with
  | .function | .cls _ | .inst _ => true
  | .builtin | .method _ => false

/-- Whether the object can take the place of `w` in `functools.wraps(g)(w)`: the `__dict__` of a class has no `update`. -/
def Obj.wrapper (x : Obj) : Bool :=
  match x.kind with
  | .function | .inst _ => true
  | .builtin | .cls _ | .method _ => false

/-- `namemacro(function)` and `parametricmacro(function)`, expander.py:67-76, 82-91: set the attribute, and return the
argument.  AttributeError if attributes of the object cannot be set. -/
def declare (h : Heap) (m : Mark) (o : Nat) : Except Raised Nat × Heap :=
  match h.get o with
  | .error e => (.error e, h)
  | .ok x =>
    if x.settable then (.ok o, { h with own := fun p m' => h.own p m' || (p == o && m' == m) })
    else (.error .attributeError, h)

/-- `isnamemacro(function)` and `isparametricmacro(function)`, expander.py:78-80, 93-95: `hasattr`. -/
def isDeclared (h : Heap) (m : Mark) (o : Nat) : Bool :=
  match h.get o with
  | .error _ => false
  | .ok x => x.places.any (h.own · m)

/-- `functools.wraps(g)(w)`: `w.__dict__.update(getattr(g, "__dict__", {}))`, and return `w`. -/
def wraps (h : Heap) (g w : Nat) : Except Raised Nat × Heap :=
  match h.get g, h.get w with
  | .ok x, .ok y =>
    if y.wrapper then
      (.ok w, { h with own := fun p m => h.own p m || (p == w && x.dict.any (h.own · m)) })
    else (.error .attributeError, h)
  | .error e, _ => (.error e, h)
  | _, .error e => (.error e, h)

/-- One step: what it returns (the number of an object) or raises, and the process after it. -/
def step (h : Heap) : Op → Except Raised Nat × Heap
  | .define k =>
    match h.make h.objs.length k with
    | .ok x => (.ok h.objs.length, { h with objs := h.objs ++ [some x] })
    | .error e => (.error e, { h with objs := h.objs ++ [none] })
  | .declare m o => declare h m o
  | .wraps g w => wraps h g w

/-- The process at the start. -/
def start : Heap := ⟨[], fun _ _ => false⟩

/-- The process after a history.  Exceptions are caught by user code, which goes on. -/
def run (ops : List Op) : Heap := ops.foldl (fun h o => (step h o).2) start

end Mcpyrate.Declare
