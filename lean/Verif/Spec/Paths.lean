import Verif.Model.Paths
/-
What the functions of coreutils.py:19-71 are documented to do, in terms of path components.
-/
namespace Mcpyrate.Paths

/-- `file` is `dir`, or lies below it: `dir` is an initial segment of the components. -/
def Under (dir file : Path) : Prop := dir <+: file

/-- Components joined by a separator. -/
def join (sep : Char) : Path → Str
  | [] => []
  | [c] => c
  | c :: cs => c ++ sep :: join sep cs

/-- No directory of `sys.path` is confused with a sibling of the file or of one of its parents whose
name it begins. -/
def NoConfusion (fs : FS) (syspath : List Str) (file : Path) : Prop :=
  ∀ e ∈ syspath, text (fs.resolve e) <+: text file → Under (fs.resolve e) file

/-- The entries of `sys.path` are written in resolved form, and the root is not among them. -/
def Written (fs : FS) (syspath : List Str) : Prop :=
  ∀ e ∈ syspath, text (fs.resolve e) = e ∧ fs.resolve e ≠ []

/-- A file system without links, "." or "..", for examples: split at separators. -/
def split : Str → Str → Path
  | acc, [] => if acc = [] then [] else [acc.reverse]
  | acc, c :: cs =>
    if c = '/' then (if acc = [] then split [] cs else acc.reverse :: split [] cs)
    else split (c :: acc) cs

/-- ".." removes the component before it. -/
def normalize : Path → Path → Path
  | acc, [] => acc.reverse
  | acc, c :: cs => if c = ['.', '.'] then normalize acc.tail cs else normalize (c :: acc) cs

end Mcpyrate.Paths
