import Verif.Py.Walk
/-
Model of `mcpyrate.astfixers.fix_locations`, astfixers.py:107-189.
-/
namespace Mcpyrate.FixLocations
open Py

/-- The `mode` argument.  It is not validated: any other string acts like "reference". -/
inductive Mode where
  | reference | update | overwrite | other
  deriving DecidableEq, Repr

/-- Reading an optional attribute `end_lineno`/`end_col_offset`: `x.end_lineno if hasattr(x,
"end_lineno") else None`. -/
def orNone : Attr → Attr
  | .missing => .none
  | a => a

def Attr.has : Attr → Bool
  | .missing => false
  | _ => true

/-- The visit of one node by `_fix`, astfixers.py:162-181.  The state holds the arguments `lineno`,
`col_offset`, `end_lineno`, `end_col_offset`.  Python 3.8+: where "lineno" is in `_attributes`, so are the
other three. -/
def step (mode : Mode) (s : Loc) (c : Cls) (l : Loc) (_ : Fields) : Except Err (Out Loc) :=
  if c.hasLoc then
    -- lineno, end_lineno
    let (l1, s1) :=
      if mode = .overwrite then ({ l with lineno := s.lineno, endLineno := s.endLineno }, s)
      else if ¬ Attr.has l.lineno then ({ l with lineno := s.lineno, endLineno := s.endLineno }, s)
      else if mode = .update then (l, { s with lineno := l.lineno, endLineno := orNone l.endLineno })
      else (l, s)
    -- col_offset, end_col_offset
    let (l2, s2) :=
      if mode = .overwrite then
        ({ l1 with colOffset := s1.colOffset, endColOffset := s1.endColOffset }, s1)
      else if ¬ Attr.has l1.colOffset then
        ({ l1 with colOffset := s1.colOffset, endColOffset := s1.endColOffset }, s1)
      else if mode = .update then
        (l1, { s1 with colOffset := l1.colOffset, endColOffset := orNone l1.endColOffset })
      else (l1, s1)
    .ok { loc := l2, child := fun _ => s2 }
  else .ok { loc := l, child := fun _ => s }

mutual
/-- `_fix` on its argument: `None` is skipped, a list is looped over (any nesting), astfixers.py:157-161. -/
def fixTop (mode : Mode) (s : Loc) : Val → Except Err Val
  | .const .none => .ok .none
  | .const _ => .error .attributeError
  | .list xs => (fixTopL mode s xs).map .list
  | .node c l fs => walk (step mode) s (.node c l fs)
def fixTopL (mode : Mode) (s : Loc) : List Val → Except Err (List Val)
  | [] => .ok []
  | x :: xs =>
    match fixTop mode s x, fixTopL mode s xs with
    | .ok y, .ok ys => .ok (y :: ys)
    | .error e, _ => .error e
    | _, .error e => .error e
end

/-- `fix_locations(tree, reference_node, mode=mode)`; `ref` is the location of the reference node. -/
def fixLocations (t : Val) (ref : Loc) (mode : Mode) : Except Err Val :=
  if ¬ (Attr.has ref.lineno ∧ Attr.has ref.colOffset) then .ok t
  else fixTop mode
    { lineno := ref.lineno, colOffset := ref.colOffset, endLineno := orNone ref.endLineno,
      endColOffset := orNone ref.endColOffset } t

end Mcpyrate.FixLocations
