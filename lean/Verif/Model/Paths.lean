import Verif.Py.Err
/-
Model of `match_syspath`, `relativize`, `resolve_package`, coreutils.py:19-71.

Strings are lists of characters.  `pathlib.Path(x).expanduser().resolve()` is a parameter: a function
from strings to absolute paths (`FS`).  POSIX (`os.path.sep` is "/").
-/
namespace Mcpyrate.Paths
open Py

abbrev Str := List Char

/-- An absolute resolved path: its components, from the root. -/
abbrev Path := List Str

/-- `str(path)` of an absolute path; the root is "/". -/
def text : Path → Str
  | [] => ['/']
  | cs => cs.flatMap fun c => '/' :: c

/-- A possible component of a resolved path. -/
def compOk (c : Str) : Prop := c ≠ [] ∧ '/' ∉ c

/-- The file system as far as it matters: what paths resolve to.  A resolved path has no symbolic
links in it, so that resolving it, or one of its parents, again has no effect. -/
structure FS where
  resolve : Str → Path
  comps : ∀ s, ∀ c ∈ resolve s, compOk c
  idem : ∀ s p, p <+: resolve s → resolve (text p) = p

/-- `(-s.count(os.path.sep), s)` of `a` is less than or equal to that of `b`, coreutils.py:64-65. -/
def leKey (a b : Str) : Bool :=
  decide (b.count '/' < a.count '/') || (decide (a.count '/' = b.count '/') && decide (a ≤ b))

/-- Insert into a sorted list, after the smaller items. -/
def insert (x : Str) : List Str → List Str
  | [] => [x]
  | y :: ys => if leKey x y then x :: y :: ys else y :: insert x ys

/-- `sorted(sys.path, key=sortkey)`.  (Items with equal keys are equal, so stability does not
matter.) -/
def sort : List Str → List Str
  | [] => []
  | x :: xs => insert x (sort xs)

/-- The loop of coreutils.py:66-69. -/
def matchLoop (fs : FS) (file : Str) : List Str → Except Err Path
  | [] => .error .valueError
  | e :: es =>
    let root := fs.resolve e
    if (text root).isPrefixOf file then .ok root else matchLoop fs file es

/-- `match_syspath(filename)`, coreutils.py:52-71. -/
def matchSyspath (fs : FS) (syspath : List Str) (filename : Str) : Except Err Path :=
  matchLoop fs (text (fs.resolve filename)) (sort syspath)

/-- Drop one leading separator, coreutils.py:47-48. -/
def dropSep : Str → Str
  | '/' :: r => r
  | r => r

/-- `relativize(filename)`, coreutils.py:35-49.  (`match_syspath` resolves its argument again.) -/
def relativize (fs : FS) (syspath : List Str) (filename : Str) : Except Err (Path × Str) :=
  let absolute := text (fs.resolve filename)
  match matchSyspath fs syspath absolute with
  | .error e => .error e
  | .ok root => .ok (root, dropSep (absolute.drop (text root).length))

/-- `relative_path.replace(os.path.sep, ".")`. -/
def dotted (s : Str) : Str := s.map fun c => if c = '/' then '.' else c

/-- `resolve_package(filename)`, coreutils.py:19-32.  The parent of the root is the root. -/
def resolvePackage (fs : FS) (syspath : List Str) (filename : Str) : Except Err Str :=
  let dir := (fs.resolve filename).dropLast
  match relativize fs syspath (text dir) with
  | .error e => .error e
  | .ok (_, rel) => if rel = [] then .error .importError else .ok (dotted rel)

end Mcpyrate.Paths
