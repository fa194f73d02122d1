import Verif.Py.Dict
/-
Model of `mcpyrate/walkers.py`: the state stack and collector of `BaseASTWalker`, and the `visit`
methods of `ASTVisitor` and `ASTTransformer`.

Objects (nodes and suites) have identities (`Obj`), because `withstate` works by `id(tree)`.
State objects (`Bunch`) are mutable and may be referenced from several places, so they live in a
heap; the stack and the override table hold references.

The user-defined `examine`/`transform` is an arbitrary program over the walker's operations.
-/
namespace Mcpyrate.Walkers
open Py

abbrev Obj := Nat


/-- Contents of a state `Bunch`. -/
abbrev State (ν : Type) := Dict String ν

/-- A walker: heap of state objects, `_stack` (head = last item), `_subtree_overrides`,
`collected`; walkers.py:51-55. -/
structure W (ν : Type) where
  heap : List (State ν)
  stack : List Nat
  overrides : Dict Obj Nat
  collected : List ν
  deriving DecidableEq, Repr

/-- User code in `examine`/`transform`: it may read, mutate and rebind `self.state`, call
`withstate`/`generic_withstate`, `visit`, `collect`, raise, and catch what `visit` raises.
`ρ` is the type of return values, `ε` of exceptions.
(`withstate` for a list registers all items; for a node, the node; `generic_withstate` the child
nodes: all are `withstate targets`.  User code that keeps a Python reference to another state
object and mutates that one is not covered.) -/
inductive Prog (ν ρ ε : Type) where
  | ret (r : ρ)
  | raise (e : ε)
  | read (k : State ν → Prog ν ρ ε)
  | write (f : State ν → State ν) (k : Prog ν ρ ε)
  | rebind (s : State ν) (k : Prog ν ρ ε)
  | withstate (targets : List Obj) (bindings : Dict String ν) (k : Prog ν ρ ε)
  | visit (t : Obj) (k : Except ε ρ → Prog ν ρ ε)
  | collect (v : ν) (k : Prog ν ρ ε)

section
variable {ν ρ ε : Type}

/-- Contents of the state object `r`. -/
def W.deref (w : W ν) (r : Nat) : Option (State ν) := w.heap[r]?

/-- Register one state object for several trees, walkers.py:90-94 and 120-121. -/
def register : List Obj → Nat → Dict Obj Nat → Dict Obj Nat
  | [], _, d => d
  | t :: ts, r, d => register ts r (Dict.set d t r)

/-- Run user code; `visitF` is the walker's `visit`.  `none`: the run does not finish, or an
internal impossibility (empty stack: IndexError in `_getstate`). -/
def run (visitF : Obj → W ν → Option (Except ε ρ × W ν)) :
    Prog ν ρ ε → W ν → Option (Except ε ρ × W ν)
  | .ret r, w => some (.ok r, w)
  | .raise e, w => some (.error e, w)
  | .read k, w =>                                   -- self.state, 60-61
    match w.stack with
    | [] => none
    | r :: _ =>
      match w.deref r with
      | none => none
      | some s => run visitF (k s) w
  | .write f k, w =>                                -- mutation of the current state object
    match w.stack with
    | [] => none
    | r :: _ =>
      match w.deref r with
      | none => none
      | some s => run visitF k { w with heap := w.heap.set r (f s) }
  | .rebind s k, w =>                               -- self.state = Bunch(...), 57-59
    match w.stack with
    | [] => none
    | _ :: rest =>
      run visitF k { w with heap := w.heap ++ [s], stack := w.heap.length :: rest }
  | .withstate ts b k, w =>                         -- 64-94, 96-121
    match w.stack with
    | [] => none
    | r :: _ =>
      match w.deref r with
      | none => none
      | some s =>
        run visitF k { w with
          heap := w.heap ++ [Dict.update s b]
          overrides := register ts w.heap.length w.overrides }
  | .visit t k, w =>
    match visitF t w with
    | none => none
    | some (r, w') => run visitF (k r) w'
  | .collect v k, w => run visitF k { w with collected := w.collected ++ [v] }   -- 123-126

/-- Visit the items of a suite one by one, walkers.py:145-147 and 186.  An exception stops the loop. -/
def visitItems (visitF : Obj → W ν → Option (Except ε ρ × W ν)) :
    List Obj → W ν → Option (Except ε (List ρ) × W ν)
  | [], w => some (.ok [], w)
  | t :: ts, w =>
    match visitF t w with
    | none => none
    | some (.error e, w') => some (.error e, w')
    | some (.ok r, w') =>
      match visitItems visitF ts w' with
      | none => none
      | some (.error e, w'') => some (.error e, w'')
      | some (.ok rs, w'') => some (.ok (r :: rs), w'')

/-- Truth value of the state object `r`: a `Bunch` has `__len__`, so an empty one is false. -/
def truthy (w : W ν) (r : Nat) : Bool :=
  match w.deref r with
  | some (_ :: _) => true
  | _ => false

/-- What a walker class is: for each object the items if it is a list; the user's
`examine`/`transform` for nodes; and how the results for the items of a suite are combined
(`ASTVisitor` returns `None`, `ASTTransformer` flattens them into the list, 186-190).
Simplification: the items of a list do not change while the walker runs. -/
structure Walker (ν ρ ε : Type) where
  items : Obj → Option (List Obj)
  examine : Obj → Prog ν ρ ε
  combine : List ρ → ρ

/-- The body of the `try` in `visit`, walkers.py:144-148 (185-191). -/
def visitBody (wk : Walker ν ρ ε) (visitF : Obj → W ν → Option (Except ε ρ × W ν)) (t : Obj)
    (w : W ν) : Option (Except ε ρ × W ν) :=
  match wk.items t with
  | some ts =>
    match visitItems visitF ts w with
    | none => none
    | some (.error e, w') => some (.error e, w')
    | some (.ok rs, w') => some (.ok (wk.combine rs), w')
  | none => run visitF (wk.examine t) w

/-- `visit(tree)`, walkers.py:138-151 and 179-194.  The override is popped from the table (140/181);
it is pushed if it is true (141-142/182-183), and popped in the `finally` clause if it is true
*then* (149-151/192-194).  Fuel bounds the depth of nested `visit` calls. -/
def visit (wk : Walker ν ρ ε) : Nat → Obj → W ν → Option (Except ε ρ × W ν)
  | 0, _, _ => none
  | n + 1, t, w =>
    match Dict.get w.overrides t with
    | none => visitBody wk (visit wk n) t w
    | some r =>
      let w1 := { w with overrides := Dict.del w.overrides t }
      let w2 := if truthy w1 r then { w1 with stack := r :: w1.stack } else w1
      match visitBody wk (visit wk n) t w2 with
      | none => none
      | some (res, w3) =>
        some (res, if truthy w3 r then { w3 with stack := w3.stack.tail } else w3)

/-- A fresh walker, `reset(**bindings)`, walkers.py:51-55. -/
def init (bindings : State ν) : W ν :=
  { heap := [bindings], stack := [0], overrides := [], collected := [] }

end
end Mcpyrate.Walkers
