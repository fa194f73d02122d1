import Verif.Spec.Importer
import Verif.Model.ImportCode
/-
Notions for the statements about imports.
-/
namespace Mcpyrate.ImportCode
open Py Paths Importer

variable {T Code : Type}

/-- Compiling the source file, as it is now, gives this code. -/
def Expands (L : Loader T Code) (fs : Files T) (path : Str) (r : Except Err Code) : Prop :=
  ∃ file, fs path = some file ∧ L.compile fs file.text path (L.name path) = r

/-- The file `q` has an import of macros or dialects from a module with the absolute name `a`. -/
def ImportsFrom (I : Interp T) (fs : Files T) (q : Str) (a : String) : Prop :=
  ∃ file body t, fs q = some file ∧ I.parse file.text = .ok body ∧ ImportIn body t ∧ Target I q t a

/-- The text of `p` and of all files it depends on through imports of macros and dialects is the same in `fs'` as in `fs`, and
the imports are found at the same places. -/
def Same (I : Interp T) (fs fs' : Files T) (p : Str) : Prop :=
  ∀ q, Reach I fs p q → (fs' q).map File.text = (fs q).map File.text ∧
    ∀ a, ImportsFrom I fs q a → I.findSpec fs' a = I.findSpec fs a

/-- The code that a module is compiled to is determined by the text of its file and of those it depends on through imports of macros
and dialects: there is nothing else that its macros look at. -/
def Determined (L : Loader T Code) : Prop :=
  ∀ fs fs' p r, Same L.I fs fs' p → Expands L fs p r → Expands L fs' p r

/-- The time of a file, in whole seconds. -/
def clock (L : Loader T Code) (f : File T) : Int := L.whole (L.I.seconds f.mtime)

/-- The files are parsed as Python does, and dated before the year 2106. -/
def Regular (L : Loader T Code) (fs : Files T) : Prop :=
  CleanFiles L.I fs ∧ ∀ p f, fs p = some f → 0 ≤ clock L f ∧ clock L f < 2 ^ 32

/-- The file `q` has been written (or made), at least a second later than all others.  Nothing else has changed; modules are found
where they were before, unless they are found in this file. -/
def Edited (L : Loader T Code) (fs fs' : Files T) (q : Str) : Prop :=
  (∀ p, p ≠ q → fs' p = fs p) ∧
  (∃ f, fs' q = some f ∧ ∀ p g, fs p = some g → clock L g < clock L f) ∧
  ∀ a, L.I.findSpec fs' a = L.I.findSpec fs a ∨ L.I.findSpec fs' a = .ok (some (some q))

/-- The states of the source files, of the macro-import caches and of the bytecode files that come about: files are written one
after another, caches are deleted or damaged, and modules are imported. -/
inductive Imports (L : Loader T Code) (V : Str → Int → T) : Files T → (Str → CacheFile) → (Str → Pyc Code) → Prop
  | start {fs disk pyc} : Versions V fs → Regular L fs → (∀ p, disk p = .absent) → (∀ p, pyc p = .absent) →
      Imports L V fs disk pyc
  | edit {fs fs' disk pyc} (q : Str) : Imports L V fs disk pyc → Versions V fs' → Regular L fs' → Edited L fs fs' q →
      Imports L V fs' disk pyc
  | damage {fs disk disk' pyc pyc'} : Imports L V fs disk pyc →
      (∀ p, disk' p = disk p ∨ disk' p = .absent ∨ disk' p = .garbage) →
      (∀ p, pyc' p = pyc p ∨ pyc' p = .absent ∨ pyc' p = .garbage) → Imports L V fs disk' pyc'
  | load {fs disk pyc} (writes : Bool) (path : Str) : Imports L V fs disk pyc →
      Imports L V fs (getCode L fs writes path disk pyc).2.1 (getCode L fs writes path disk pyc).2.2

/-- The modules that the hooks look after: in a `.py` file, outside of the standard library. -/
def Tracked (L : Loader T Code) (path : Str) : Prop := (∃ stem, path = stem ++ ".py".toList) ∧ L.isStdlib path = false

end Mcpyrate.ImportCode
