import Verif.Model.RunCode
import Verif.Spec.Compiler
import Verif.Spec.Modules
import Verif.Spec.FutureImports
/-
Specification of `run`.
-/
namespace Mcpyrate.RunCode
open Py Expander GetMacros Compiler Modules

variable {υ μ D Code : Type}

/-- `run(source, module)` finishes with outcome `r`, in state `p'`. -/
def Finishes (T : Runner υ μ D Code) (uuid : Str) (source : RunSource Code) (module : ModuleArg) (p : State υ)
    (r : Except Exc Obj) (p' : State υ) : Prop :=
  ∃ n, run T uuid n source module p = some (r, p')

/-- The state with another `sys.modules` or attributes. -/
def OnlySys (p p' : State υ) : Prop := p'.globals = p.globals ∧ p'.registry = p.registry ∧ p'.user.2 = p.user.2

/-- The module in which the code is to run: a new one, with a unique name, registered like Python does it; the one with
the given name; the one that is given. -/
inductive Target (uuid : Str) (p : State υ) : ModuleArg → Obj → State υ → Prop
  | new {m p1} : Created ("dynamically_created_module_".toList ++ uuid)
        ("<dynamically created module ".toList ++ uuid ++ ">".toList) true p.user.1 m p1.user.1 → OnlySys p p1 →
      Target uuid p .none (.obj m) p1
  | named {n x} : p.user.1.modules.get n = some x → Target uuid p (.name n) x p
  | given {m} : Target uuid p (.module m) (.obj m) p

/-- The object is a module: it has the attributes `__file__`, a string, and `__name__`. -/
def IsModule (x : Obj) (p : State υ) (m : Nat) (file : Str) (name : Obj) : Prop :=
  x = .obj m ∧ (p.user.1.attrs m).get "__file__".toList = some (.str file) ∧
    (p.user.1.attrs m).get "__name__".toList = some name

/-- The source to be expanded.  A tree or list of statements in a module without a source file is unparsed. -/
inductive Prepared (T : Runner υ μ D Code) (file : Str) : Source → Source → Prop
  | tree {t text} : (¬ ∃ a, file = a ++ ['.', 'p', 'y']) → T.unparse t = .ok text → Prepared T file (.tree t) (.str text)
  | list {xs text} : (¬ ∃ a, file = a ++ ['.', 'p', 'y']) → T.unparse (.list xs) = .ok text →
      Prepared T file (.list xs) (.str text)
  | file {src} : (∃ a, file = a ++ ['.', 'p', 'y']) → Prepared T file src src
  | str {text} : Prepared T file (.str text) (.str text)
  | bytes {b} : Prepared T file (.bytes b) (.bytes b)
  | other : Prepared T file .other .other

/-- The module docstring: the string, if the first statement is a string; otherwise `None`. -/
def Docstring (body : List Val) (d : Obj) : Prop :=
  (∃ s rest e v, body = s :: rest ∧ s.isK .Expr = true ∧ s.get? .value = some e ∧ e.isK .Constant = true ∧
    e.get? .value = some (.str v) ∧ d = .str v.toList) ∨
  (∀ s, body.head? = some s → ¬ FutureImports.IsDocstring s) ∧ d = .none

/-- The first statement is not a constant other than a string or `None`. -/
def NoOtherConstant (body : List Val) : Prop :=
  ∀ s e c, body.head? = some s → s.isK .Expr = true → s.get? .value = some e → e.isK .Constant = true →
    e.get? .value = some (.const c) → c = .none ∨ ∃ v, c = .str v

/-- The name of the module, if it is a string, is passed on. -/
def SelfName (name : Obj) (self : Option String) : Prop :=
  (∃ s, name = .str s ∧ self = some (String.ofList s)) ∨ (∀ s, name ≠ .str s) ∧ self = none

/-- Python's compiler and the expander get from `src` to this code, with this docstring. -/
def Compiled (T : Runner υ μ D Code) (file : Str) (name : Obj) (src : Source) (p : State υ) (t : Val) (body : List Val)
    (code : Code) (p2 : State υ) : Prop :=
  ∃ self src', SelfName name self ∧ Prepared T file src src' ∧ Expands T.toTools file self src' p (.ok t) p2 ∧
    t.isK .Module = true ∧ t.get? .body = some (.list body) ∧ T.compile t file = .ok code

/-- The attribute `__doc__` of `m` is set, and nothing else. -/
def DocSet (m : Nat) (d : Obj) (p p' : State υ) : Prop :=
  OnlySys p p' ∧ p'.user.1.modules = p.user.1.modules ∧ p'.user.1.next = p.user.1.next ∧
    ∀ i a, (p'.user.1.attrs i).get a =
      if i = m ∧ a = "__doc__".toList then some d else (p.user.1.attrs i).get a

end Mcpyrate.RunCode
