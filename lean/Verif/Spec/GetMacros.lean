import Verif.Model.GetMacros
/-
Specification of macro-imports.
-/
namespace Mcpyrate.GetMacros
open Py Paths

variable {σ M O : Type}

/-- The statement `from <level dots><module> import …`. -/
structure IsFrom (t : Val) (level : Nat) (module : String) : Prop where
  level : t.get? .level = some (.int level)
  module : t.get? .module_ = some (.str module)

/-- The names the statement imports, with their aliases, in order. -/
def Names (t : Val) (ns : List (String × Option String)) : Prop :=
  ∃ vs, t.get? .names = some (.list vs) ∧ vs.map aliasOf = ns.map .ok

/-- `pkg` has at least `n` components, and `base` is `pkg` without the last `n - 1`: what `n` leading
dots mean in a module of the package. -/
def DotsOf (pkg : Str) (n : Nat) (base : Str) : Prop :=
  ∃ front back : List Str, (∀ c ∈ front ++ back, '.' ∉ c) ∧ front ≠ [] ∧ back.length = n - 1 ∧
    pkg = joinDots (front ++ back) ∧ base = joinDots front

/-- Importing (and reloading, if wanted) the module `a` in state `s` gives `m` and state `s'`. -/
def Imports (I : Interp σ M O) (reload : Bool) (a : String) (s : σ) (m : M) (s' : σ) : Prop :=
  ∃ m1 s1, I.importModule a s = (.ok m1, s1) ∧
    (if reload then I.reload m1 s1 = (.ok m, s') else m = m1 ∧ s' = s1)

/-- The import statement refers to the module `m` with the absolute name `a`; `s'` is the state after
importing it. -/
inductive Refers (I : Interp σ M O) (o : Opts) (t : Val) (s : σ) : String → M → σ → Prop
  /-- `from __self__ import …`: the module being expanded -/
  | self {a m} : IsFrom t 0 "__self__" → o.selfModule = some a → I.sysModules s a = some m →
      Refers I o t s a m s
  /-- `from a import …` -/
  | absolute {a m s'} : IsFrom t 0 a → a ≠ "__self__" → Imports I o.reload a s m s' →
      Refers I o t s a m s'
  /-- `from ..name import …` in a file that belongs to a package -/
  | relative {n name pkg base m s'} : IsFrom t (n + 1) name → name ≠ "__self__" → name ≠ "" →
      (∃ stem, o.filename = stem ++ ".py".toList) → resolvePackage I.fs I.syspath o.filename = .ok pkg →
      DotsOf pkg (n + 1) base → Imports I o.reload (String.ofList (base ++ '.' :: name.toList)) s m s' →
      Refers I o t s (String.ofList (base ++ '.' :: name.toList)) m s'

/-- Each name is an attribute of the module and callable, and has an alias only where allowed. -/
def Importable (I : Interp σ M O) (o : Opts) (s : σ) (m : M) (ns : List (String × Option String)) : Prop :=
  ∀ x ∈ ns, (∃ f, I.attr s m x.1 = some f ∧ I.callable f = true) ∧ (x.2.isSome → o.allowAsname = true)

/-- The name under which a macro is bound: its alias if there is one. -/
def boundName (x : String × Option String) : String := x.2.getD x.1

/-- The bindings: `k` is bound to the attribute of the last imported name that is bound as `k`. -/
def Bindings (I : Interp σ M O) (s : σ) (m : M) (ns : List (String × Option String))
    (b : Dict String O) : Prop :=
  b.WF ∧ ∀ k f, b.get k = some f ↔
    ∃ before x after, ns = before ++ x :: after ∧ boundName x = k ∧ I.attr s m x.1 = some f ∧
      ∀ y ∈ after, boundName y ≠ k

/-- An import statement as the parser makes them. -/
structure Parsed (t : Val) : Prop where
  from_ : (∃ n m, IsFrom t n m ∧ m ≠ "" ∧ m.toList.head? ≠ some '.') ∨
    -- `from . import …`
    (∃ n : Nat, t.get? .level = some (.int (n + 1)) ∧ t.get? .module_ = some .none)
  names : ∃ x ns, Names t (x :: ns) ∧ ∀ y ∈ x :: ns, y.2 ≠ some ""

end Mcpyrate.GetMacros
