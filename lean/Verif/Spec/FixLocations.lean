import Verif.Spec.Tree
/-
Specification for `fix_locations`.
-/
namespace Mcpyrate.FixLocations
open Py

/-- The node is located: it has a line number and a column offset. -/
def Located (l : Loc) : Prop := l.lineno ≠ .missing ∧ l.colOffset ≠ .missing

instance (l : Loc) : Decidable (Located l) := inferInstanceAs (Decidable (_ ∧ _))

/-- The location attributes of `l` used as a source: a missing end position counts as `None`. -/
def source (l : Loc) : Loc :=
  { l with endLineno := if l.endLineno = .missing then .none else l.endLineno,
           endColOffset := if l.endColOffset = .missing then .none else l.endColOffset }

/-- Class and location of every node, in preorder. -/
def locs (t : Val) : List (Cls × Loc) :=
  (preorder t).map fun | .node c l _ => (c, l) | _ => (.py .Module, {})

/-- Apply `g` to the location of each node that can carry one. -/
def onLocated (g : Loc → Loc) (p : Cls × Loc) : Cls × Loc := if p.1.hasLoc then (p.1, g p.2) else p

/-- Fill in the missing parts of `l` from `r`.  The line numbers go together, and so do the columns. -/
def fill (r l : Loc) : Loc :=
  let l1 := if l.lineno = .missing then { l with lineno := r.lineno, endLineno := r.endLineno } else l
  if l.colOffset = .missing then { l1 with colOffset := r.colOffset, endColOffset := r.endColOffset }
  else l1

mutual
/-- Forget all locations. -/
def eraseLoc : Val → Val
  | .const c => .const c
  | .list xs => .list (eraseLocL xs)
  | .node c _ fs => .node c {} (eraseLocF fs)
def eraseLocF : List (F × Val) → List (F × Val)
  | [] => []
  | (f, .const c) :: r => (f, .const c) :: eraseLocF r
  | (f, .list xs) :: r => (f, .list (eraseLocL xs)) :: eraseLocF r
  | (f, .node c l fs) :: r => (f, eraseLoc (.node c l fs)) :: eraseLocF r
def eraseLocL : List Val → List Val
  | [] => []
  | .node c l fs :: r => eraseLoc (.node c l fs) :: eraseLocL r
  | .list xs :: r => .list xs :: eraseLocL r
  | .const c :: r => .const c :: eraseLocL r
end

/-- One node of `ast.fix_missing_locations` (Lib/ast.py, Python 3.8 to 3.12): new location of the
node, and what is passed on to its children. -/
def stdOne (s l : Loc) : Loc × Loc :=
  let isNone : Attr → Bool := fun | .int _ => false | _ => true
  ({ lineno := if l.lineno = .missing then s.lineno else l.lineno,
     endLineno := if isNone l.endLineno then s.endLineno else l.endLineno,
     colOffset := if l.colOffset = .missing then s.colOffset else l.colOffset,
     endColOffset := if isNone l.endColOffset then s.endColOffset else l.endColOffset },
   { lineno := if l.lineno = .missing then s.lineno else l.lineno,
     endLineno := if isNone l.endLineno then s.endLineno else l.endLineno,
     colOffset := if l.colOffset = .missing then s.colOffset else l.colOffset,
     endColOffset := if isNone l.endColOffset then s.endColOffset else l.endColOffset })

mutual
/-- `ast.fix_missing_locations` with the seed `s` instead of (1, 0, 1, 0). -/
def stdFix (s : Loc) : Val → Val
  | .const c => .const c
  | .list xs => .list (stdFixL s xs)
  | .node c l fs =>
    if c.hasLoc then .node c (stdOne s l).1 (stdFixF (stdOne s l).2 fs)
    else .node c l (stdFixF s fs)
def stdFixF (s : Loc) : List (F × Val) → List (F × Val)
  | [] => []
  | (f, .const c) :: r => (f, .const c) :: stdFixF s r
  | (f, .list xs) :: r => (f, .list (stdFixL s xs)) :: stdFixF s r
  | (f, .node c l fs) :: r => (f, stdFix s (.node c l fs)) :: stdFixF s r
def stdFixL (s : Loc) : List Val → List Val
  | [] => []
  | .node c l fs :: r => stdFix s (.node c l fs) :: stdFixL s r
  | .list xs :: r => .list xs :: stdFixL s r
  | .const c :: r => .const c :: stdFixL s r
end

/-- Start and end positions are there together: a line number exactly when there is an end line
number, a column exactly when there is an end column. -/
def Consistent (l : Loc) : Prop :=
  (l.lineno ≠ .missing ↔ ∃ n, l.endLineno = .int n) ∧
  (l.colOffset ≠ .missing ↔ ∃ n, l.endColOffset = .int n)

end Mcpyrate.FixLocations
