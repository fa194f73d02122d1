import Verif.Model.Collector
import Verif.Spec.Invocation
import Verif.Spec.Fixpoint
/-
Specification for `MacroCollector`.
-/
namespace Mcpyrate.Collector
open Py Expander

variable {υ : Type}

/-- A collector that has just been created visits `t`: the outcome, and what it has collected. -/
def Collects (E : Env υ) (w : World υ) (t : Val) (r : Except Exc Unit) (l : List Key) : Prop :=
  ∃ n, visit E w n t [] = some (r, l)

/-- The node `t` is an invocation of the macro `k`, of the given type: `k[…]`, `with k: …`, `@k def …`, or `k` for an
identifier macro. -/
inductive InvokesAs (E : Env υ) (w : World υ) : Val → Key → Prop
  | expr {t c k as id} : t.isK .Subscript = true → t.get? .value = some c → Candidate c k as → Accepts E w k as id →
      InvokesAs E w t (k, .expr)
  | block {t items item c k as id} : t.isK .With = true → t.get? .items = some (.list items) → item ∈ items →
      item.get? .context_expr = some c → Candidate c k as → Accepts E w k as id → InvokesAs E w t (k, .block)
  | decorator {t items c k as id} : (t.isK .FunctionDef = true ∨ t.isK .ClassDef = true) →
      t.get? .decorator_list = some (.list items) → c ∈ items → Candidate c k as → Accepts E w k as id →
      InvokesAs E w t (k, .decorator)
  | name {t k id} : t.isK .Name = true → t.get? .id = some (.str k) → k ≠ "" →
      isbound w k = some id → (E.macros id).isName = true → InvokesAs E w t (k, .name)

/-- `c` is the expression at the node `t` that can name a macro. -/
inductive Head : Val → Val → Prop
  | expr {t c} : t.isK .Subscript = true → t.get? .value = some c → Head t c
  | block {t items item c} : t.isK .With = true → t.get? .items = some (.list items) → item ∈ items →
      item.get? .context_expr = some c → Head t c
  | decorator {t items c} : (t.isK .FunctionDef = true ∨ t.isK .ClassDef = true) →
      t.get? .decorator_list = some (.list items) → c ∈ items → Head t c

/-- The parts of a macro invocation where further invocations may be: everything but the expressions that name the
macros, and the `as` parts. -/
inductive Part (E : Env υ) (w : World υ) : Val → Val → Prop
  | arg {t c k as id a} : Head t c → Candidate c k as → Accepts E w k as id → a ∈ as → Part E w t a
  | tree {t v} : t.isK .Subscript = true → t.get? .slice = some v → Part E w t v
  | item {t items item c} : t.isK .With = true → t.get? .items = some (.list items) → item ∈ items →
      item.get? .context_expr = some c → ¬ Names E w c → Part E w t item
  | body {t xs x} : t.isK .With = true → t.get? .body = some (.list xs) → x ∈ xs → Part E w t x
  | decorator {t items c} : (t.isK .FunctionDef = true ∨ t.isK .ClassDef = true) →
      t.get? .decorator_list = some (.list items) → c ∈ items → ¬ Names E w c → Part E w t c
  | field {t f v} : (t.isK .FunctionDef = true ∨ t.isK .ClassDef = true) → f ≠ .decorator_list → f ≠ .name →
      t.get? f = some v → v.isAST = true → Part E w t v
  | fields {t f xs v} : (t.isK .FunctionDef = true ∨ t.isK .ClassDef = true) → f ≠ .decorator_list → f ≠ .name →
      t.get? f = some (.list xs) → v ∈ xs → Part E w t v

/-- `u` occurs in `t`, outside of `Done`-marked parts, and outside of the expressions that name the macros of other
invocations. -/
inductive Exposed (E : Env υ) (w : World υ) : Val → Val → Prop
  | refl (t) : isDone t = false → Exposed E w t t
  | inside {t u s} : isDone t = false → ¬ Invocation E w t → u ∈ childNodes t → Exposed E w u s → Exposed E w t s
  | part {t u s} : Invocation E w t → Part E w t u → Exposed E w u s → Exposed E w t s

/-- A list of nodes. -/
def nodesAt (t : Val) (f : F) : Bool :=
  match t.get? f with
  | some (.list xs) => xs.all Val.isAST
  | _ => false

/-- A node, nothing, or a list of nodes. -/
def isPart (v : Val) : Bool :=
  match v with
  | .list xs => xs.all Val.isAST
  | v => v.isAST || v.isNone

/-- In the fields where Python's grammar has nodes, there are nodes. -/
def partsOk (t : Val) : Bool :=
  match t with
  | .node (.py .Subscript) _ _ =>
    match t.get? .slice with
    | some v => v.isAST
    | none => false
  | .node (.py .Name) _ _ => (childNodes t).all isCtxNode
  | .node (.py .Call) _ _ => nodesAt t .args
  | .node (.py .Tuple) _ _ => nodesAt t .elts
  | .node (.py .With) _ _ =>
    match t.get? .items with
    | some (.list items) => items.all (Val.isK .withitem) && nodesAt t .body
    | _ => false
  | .node (.py .FunctionDef) _ fs | .node (.py .ClassDef) _ fs =>
    nodesAt t .decorator_list && fs.all fun p => p.1 == .name || p.1 == .type_comment && !p.2.isList || isPart p.2
  | _ => true

/-- The tree has nodes where Python's grammar has them. -/
def Shaped (t : Val) : Prop := ∀ u, Open t u → partsOk u = true

/-- No definition has a type comment. -/
def NoTypeComments (t : Val) : Prop :=
  ∀ k l fs, Open t (.node (.py k) l fs) → k = .FunctionDef ∨ k = .ClassDef → ∀ v, (.type_comment, v) ∈ fs → v = .none

/-- No macro invocation with a bad argument list, such as `k()[…]`; and no expression of that form that is subscripted,
even if `k` is not a macro. -/
structure NoBadCalls (E : Env υ) (w : World υ) (t : Val) : Prop where
  expr : ∀ u c, Open t u → u.isK .Subscript = true → u.get? .value = some c → ¬ BadCall c
  block : ∀ u items item c, Open t u → u.isK .With = true → u.get? .items = some (.list items) → item ∈ items →
    item.get? .context_expr = some c → Names E w c → ¬ BadCall c
  decorator : ∀ u items c, Open t u → (u.isK .FunctionDef = true ∨ u.isK .ClassDef = true) →
    u.get? .decorator_list = some (.list items) → c ∈ items → Names E w c → ¬ BadCall c

end Mcpyrate.Collector
