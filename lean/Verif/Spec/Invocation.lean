import Verif.Spec.Expander
/-
Macro invocation syntax, as documented in doc/main.md ("Macro invocation types", "Macro arguments").
-/
namespace Mcpyrate.Expander
open Py

variable {υ : Type}

/-- An expression that may name a macro, with arguments: `k`, `k[a, …]`, `k(a, …)`. -/
inductive Candidate : Val → String → List Val → Prop
  | plain {t k} : t.isK .Name = true → t.get? .id = some (.str k) → Candidate t k []
  | bracket {t v k a} : t.isK .Subscript = true → t.get? .value = some v → v.isK .Name = true →
      v.get? .id = some (.str k) → t.get? .slice = some a → a.isK .Tuple = false → Candidate t k [a]
  | brackets {t v k a as} : t.isK .Subscript = true → t.get? .value = some v → v.isK .Name = true →
      v.get? .id = some (.str k) → t.get? .slice = some a → a.isK .Tuple = true →
      a.get? .elts = some (.list as) → Candidate t k as
  | parens {t v k as kws} : t.isK .Call = true → t.get? .func = some v → v.isK .Name = true →
      v.get? .id = some (.str k) → t.get? .keywords = some kws → (kws = .list [] ∨ kws = .none) →
      t.get? .args = some (.list as) → Candidate t k as

/-- Parenthesised arguments must be there and not be unpacked. -/
def BadCall (t : Val) : Prop :=
  t.isK .Call = true ∧
    (t.get? .args = some (.list []) ∨ ∃ as a, t.get? .args = some (.list as) ∧ a ∈ as ∧ a.isK .Starred = true)

/-- The name is bound to the macro function `id`, and that accepts the arguments. -/
def Accepts (E : Env υ) (w : World υ) (k : String) (as : List Val) (id : Nat) : Prop :=
  k ≠ "" ∧ isbound w k = some id ∧ (as = [] ∨ (E.macros id).isParam = true)

/-- The expression `c` names a macro, in a position where a macro can be invoked. -/
def Names (E : Env υ) (w : World υ) (c : Val) : Prop :=
  ∃ k as id, Candidate c k as ∧ Accepts E w k as id

/-- The node is a macro invocation: `k[…]`, `with k: …`, `@k def …`, or `k` for an identifier
macro. -/
inductive Invocation (E : Env υ) (w : World υ) : Val → Prop
  | expr {t c} : t.isK .Subscript = true → t.get? .value = some c → Names E w c → Invocation E w t
  | block {t items item c} : t.isK .With = true → t.get? .items = some (.list items) → item ∈ items →
      item.get? .context_expr = some c → Names E w c → Invocation E w t
  | decorator {t items c} : (t.isK .FunctionDef = true ∨ t.isK .ClassDef = true) →
      t.get? .decorator_list = some (.list items) → c ∈ items → Names E w c → Invocation E w t
  | name {t k id} : t.isK .Name = true → t.get? .id = some (.str k) → k ≠ "" →
      isbound w k = some id → (E.macros id).isName = true → Invocation E w t

def hasField (t : Val) (f : F) : Bool := (t.get? f).isSome
def hasList (t : Val) (f : F) : Bool :=
  match t.get? f with
  | some (.list _) => true
  | _ => false

/-- The fields that Python's grammar requires are there, for the classes the expander looks at. -/
def fieldsOk (t : Val) : Bool :=
  match t with
  | .node (.py .Name) _ _ => hasField t .id
  | .node (.py .Subscript) _ _ => hasField t .value && hasField t .slice
  | .node (.py .Call) _ _ => hasField t .func && hasList t .args && hasField t .keywords
  | .node (.py .Tuple) _ _ => hasList t .elts
  | .node (.py .With) _ _ =>
    match t.get? .items with
    | some (.list items) => items.all fun i => i.isK .withitem && hasField i .context_expr
    | _ => false
  | .node (.py .FunctionDef) _ _ => hasList t .decorator_list
  | .node (.py .ClassDef) _ _ => hasList t .decorator_list
  | _ => true

/-- `u` occurs in `t` outside of `Done`-marked parts. -/
inductive Open : Val → Val → Prop
  | refl (t) : isDone t = false → Open t t
  | step {t u s} : isDone t = false → u ∈ childNodes t → Open u s → Open t s

/-- All nodes have the fields that Python's grammar requires. -/
def WellFormed (t : Val) : Prop := ∀ u, Reach t u → fieldsOk u = true

/-- The node with a field assigned. -/
def withField (t : Val) (f : F) (v : Val) : Val :=
  match t with
  | .node c l fs => .node c l (setF fs f v)
  | t => t

/-- `Invokes E w t k id a c`: by the documented rules the node `t` invokes the macro function `id`,
bound as `k`, and the macro receives `a`; `c` is the expression that names the macro.

* `k[tree]`, `k[args][tree]`, `k(args)[tree]`: an expr macro.
* `with`: the first item that names a macro is popped; the macro receives the body if no items are
  left, else a list of the `with` statement with the other items; `optional_vars` is its as-part.
* decorators: the last (innermost) one that names a macro is popped.
* a name: if the macro is declared as an identifier macro. -/
inductive Invokes (E : Env υ) (w : World υ) : Val → String → Nat → MArgs → Val → Prop
  | expr {t c k as id tree} : t.isK .Subscript = true → t.get? .value = some c → Candidate c k as →
      Accepts E w k as id → t.get? .slice = some tree →
      Invokes E w t k id ⟨.expr, tree, some as, none, t⟩ c
  | block {t before item after c k as id body} : t.isK .With = true →
      t.get? .items = some (.list (before ++ item :: after)) →
      (∀ i ∈ before, ∀ c, i.get? .context_expr = some c → ¬ Names E w c) →
      item.get? .context_expr = some c → Candidate c k as → Accepts E w k as id →
      t.get? .body = some body →
      Invokes E w t k id ⟨.block,
        if before ++ after = [] then body else .list [withField t .items (.list (before ++ after))],
        some as, some ((item.get? .optional_vars).getD .none), t⟩ c
  | decorator {t before c after k as id} : (t.isK .FunctionDef = true ∨ t.isK .ClassDef = true) →
      t.get? .decorator_list = some (.list (before ++ c :: after)) →
      (∀ i ∈ after, ¬ Names E w i) → Candidate c k as → Accepts E w k as id →
      Invokes E w t k id ⟨.decorator, withField t .decorator_list (.list (before ++ after)), some as, none, t⟩ c
  | name {t k id} : t.isK .Name = true → t.get? .id = some (.str k) → k ≠ "" →
      isbound w k = some id → (E.macros id).isName = true →
      Invokes E w t k id ⟨.name, t, none, none, t⟩ t

end Mcpyrate.Expander
