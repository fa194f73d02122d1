import Verif.Model.Macropython
/-
Specification for C63: finding a module, and running it as `__main__`.
-/
namespace Mcpyrate.Macropython
open Py

variable {υ L : Type}

/-- The finders are asked in turn, and the first answer that is not `None` is the spec of the module. -/
inductive Searched (name : Str) (path : Option (List Str)) :
    List (Option (Str → Option (List Str) → R υ (Option (ModSpec L)))) → World υ → ModSpec L → World υ → Prop
  | skip {fs w s w'} (h : Searched name path fs w s w') : Searched name path (none :: fs) w s w'
  | pass {f fs w w1 s w'} (h : f name path w = some (.ok none, w1)) (hs : Searched name path fs w1 s w') :
      Searched name path (some f :: fs) w s w'
  | found {f fs w s w'} (h : f name path w = some (.ok (some s), w')) : Searched name path (some f :: fs) w s w'

/-- No finder knows the module. -/
inductive NotFound (name : Str) (path : Option (List Str)) :
    List (Option (Str → Option (List Str) → R υ (Option (ModSpec L)))) → World υ → World υ → Prop
  | nil {w} : NotFound name path [] w w
  | skip {fs w w'} (h : NotFound name path fs w w') : NotFound name path (none :: fs) w w'
  | pass {f fs w w1 w'} (h : f name path w = some (.ok none, w1)) (hs : NotFound name path fs w1 w') :
      NotFound name path (some f :: fs) w w'

/-- What comes before the search: the package that contains the module is imported, if there is one.  `parent` is its name, or
empty; `path` is where to search. -/
inductive Prepared (H : Host υ L) : Str → Str → World υ → Option (List Str) → World υ → Prop
  | top {name w} (h : '.' ∉ name) : Prepared H name [] w none w
  | sub {parent child : Str} {w w1 w2 path} (hp : parent ≠ []) (h0 : parent.head? ≠ some '.') (hc : '.' ∉ child)
      (hi : H.importModule parent w = some (.ok (), w1)) (hl : H.locations parent w1 = some (.ok (some path), w2))
      (hn : path ≠ []) : Prepared H (parent ++ '.' :: child) parent w (some path) w2

/-- The exceptions that are not an instance of `Exception`: SystemExit, KeyboardInterrupt and others. -/
def Bare (e : Exc) : Prop := (∃ c, e = .exit c) ∨ ∃ n, e = .interrupt n

/-- The code of the module is run, with the module as `__main__`.  Afterwards the module stays there, unless an exception
is raised: then the module that was there at first is put back. -/
def AsMain (H : Host υ L) (loader : L) (package : Str) (path : Option (List Str)) (w : World υ) (r : Except Exc Unit)
    (w' : World υ) : Prop :=
  ∃ w3, H.exec loader ⟨"__main__".toList, package, path⟩ { w with main := .program } = some (r, w3) ∧
    ((r = .ok () ∧ w' = w3) ∨
     (∃ e, r = .error e ∧ ¬ Bare e ∧ w' = { w3 with main := .bootstrap }) ∨
     (∃ e, r = .error e ∧ Bare e ∧ w' = w3))

/-- `sys.path` with the directory in the first place, where it may be already, and its subdirectory `__pypackages__`, if
there is one, in the second. -/
def Pushed (H : Host υ L) (dir : Paths.Path) (w w' : World υ) : Prop :=
  ∃ rest, (w.syspath = Paths.text dir :: rest ∨ (w.syspath ≠ [] ∧ w.syspath.head? ≠ some (Paths.text dir) ∧ rest = w.syspath)) ∧
    ∃ w1, w1 = { w with syspath := Paths.text dir :: rest } ∧
    ((H.isDir (dir ++ ["__pypackages__".toList]) w1 = true ∧
        w' = { w with syspath := Paths.text dir :: Paths.text (dir ++ ["__pypackages__".toList]) :: rest }) ∨
      (H.isDir (dir ++ ["__pypackages__".toList]) w1 = false ∧ w' = w1))

end Mcpyrate.Macropython
