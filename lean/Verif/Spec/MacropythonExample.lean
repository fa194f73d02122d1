import Verif.Spec.Macropython
import Verif.Lemmas.Paths
/-
A small import system, for examples.
-/
namespace Mcpyrate.Macropython.Ex
open Py

/-- What happens: a module is imported, or the code of a module is run while `sys.modules["__main__"]` is `main`. -/
inductive Event where
  | imported (name : String)
  | ran (loader : Nat) (a : Attrs) (main : Module)
  deriving DecidableEq

abbrev W := World (List Event)

/-- `known`: the modules that a finder knows; `imports`: what importing raises; `runs`: what running raises. -/
def host (known : String → Option (ModSpec Nat)) (imports : String → Except Exc Unit) (runs : Nat → Except Exc Unit)
    (stash : Module) : Host (List Event) Nat where
  importModule n w := some (imports (String.ofList n), { w with user := w.user ++ [.imported (String.ofList n)] })
  locations _ w := some (.ok (some ["/lib/pkg".toList]), w)
  finders _ := [none, some fun _ _ w => some (.ok none, w), some fun n _ w => some (.ok (known (String.ofList n)), w)]
  moduleFromSpec s w := some (.ok s.loader, w)
  exec l a w := some (runs l, { w with user := w.user ++ [.ran l a w.main] })
  stash := stash
  fs := Paths.plainFS
  cwd := "/home/u".toList
  isFile _ _ := true
  isDir p _ := p == ["home".toList, "u".toList, "__pypackages__".toList]
  clean _ w := some (.ok (), w)
  listCaches _ w := some (.ok (), w)
  prepare _ w := some (.ok (), w)
  interact w := some (.ok (), w)
  help w := some (.ok (), w)

def start : W := ⟨.bootstrap, ["/opt".toList], []⟩

/-- The result, `sys.modules["__main__"]`, `sys.path`, and what happened. -/
def outcome (m : R (List Event) Unit) : Option (Except Exc Unit × Module × List Str × List Event) :=
  (m start).map fun x => (x.1, x.2.main, x.2.syspath, x.2.user)

/-- `prog.py`; the package `pkg` with `pkg.prog` and the subpackage `pkg.sub`; the namespace package `space`. -/
def known : String → Option (ModSpec Nat)
  | "prog" => some ⟨some 1, some "/lib/prog.py".toList, none⟩
  | "pkg" => some ⟨some 2, some "/lib/pkg/__init__.py".toList, some ["/lib/pkg".toList]⟩
  | "pkg.prog" => some ⟨some 3, some "/lib/pkg/prog.py".toList, none⟩
  | "pkg.sub" => some ⟨some 4, some "/lib/pkg/sub/__init__.py".toList, some ["/lib/pkg/sub".toList]⟩
  | "space" => some ⟨some 5, none, some ["/lib/space".toList]⟩
  | _ => none

def fine : Host (List Event) Nat := host known (fun _ => .ok ()) (fun _ => .ok ()) .bootstrap

end Mcpyrate.Macropython.Ex
