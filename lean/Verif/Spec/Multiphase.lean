import Verif.Model.Multiphase
import Verif.Spec.FutureImports
import Verif.Spec.Invocation
/-
Specification of multi-phase compilation.
-/
namespace Mcpyrate.Multiphase
open Py Modules

/-- `t` is the statement `with phase[n]: b`.  (`True` counts as 1.) -/
def IsPhase (t : Val) (n : Nat) (b : List Val) : Prop :=
  t.isK .With = true ∧ t.get? .body = some (.list b) ∧ 1 ≤ n ∧
  ∃ item sub nm c, t.get? .items = some (.list [item]) ∧ (item.get? .optional_vars).getD .none = .none ∧
    item.get? .context_expr = some sub ∧ sub.isK .Subscript = true ∧ sub.get? .value = some nm ∧
    nm.isK .Name = true ∧ nm.get? .id = some (.str "phase") ∧ sub.get? .slice = some c ∧
    c.isK .Constant = true ∧ (c.get? .value = some (.int n) ∨ n = 1 ∧ c.get? .value = some (.const (.bool true)))

/-- `AtPhase k body code`: `code` is the code of the phases `k` and higher, in textual order, with the
phase headers removed; all other code belongs to phase 0, except that future-imports are part of every
phase. -/
inductive AtPhase (k : Nat) : List Val → List Val → Prop
  | nil : AtPhase k [] []
  | block {t n b ts out} : IsPhase t n b → k ≤ n → AtPhase k ts out → AtPhase k (t :: ts) (b ++ out)
  | lower {t n b ts out} : IsPhase t n b → n < k → AtPhase k ts out → AtPhase k (t :: ts) out
  | plain {t ts out} : (∀ n b, ¬ IsPhase t n b) → k = 0 → AtPhase k ts out → AtPhase k (t :: ts) (t :: out)
  | future {t ts out} : FutureImports.IsFuture t → 0 < k → AtPhase k ts out → AtPhase k (t :: ts) (t :: out)
  | other {t ts out} : (∀ n b, ¬ IsPhase t n b) → ¬ FutureImports.IsFuture t → 0 < k → AtPhase k ts out →
      AtPhase k (t :: ts) out

/-- `n` is the highest phase of the module (0 if there are no phase blocks). -/
def Highest (body : List Val) (n : Nat) : Prop :=
  (∀ t ∈ body, ∀ m b, IsPhase t m b → m ≤ n) ∧ (n = 0 ∨ ∃ t ∈ body, ∃ b, IsPhase t n b)

/-- The statement `__phase__ = k`, on one line. -/
def phaseIs (k : Nat) : Val :=
  .node (.py .Assign) ⟨.int 1, .int 1, .missing, .missing⟩
    [(.targets, .list [.node (.py .Name) ⟨.int 1, .int 1, .missing, .missing⟩
      [(.id, .str "__phase__"), (.ctx, mk .Store [])]]),
     (.value, .node (.py .Constant) ⟨.int 1, .int 13, .missing, .missing⟩ [(.value, .int k)])]

variable {τ : Type}

/-- Compiling and running the phases `k`, …, 1 one after the other (each with `__phase__` assigned
after its future-imports; a phase without code is skipped), then expanding phase 0. -/
inductive Staged (C : Compiler τ) (module : Nat) (body : List Val) :
    Nat → Sys × τ → Except Err (Option (List Val)) → Sys × τ → Prop
  | last {code c s r s'} : AtPhase 0 body code → code ≠ [] →
      FutureImports.inject (phaseIs 0) (.list code) = .ok c → C.expand c s = (r, s') →
      Staged C module body 0 s (r.map some) s'
  | empty {s} : AtPhase 0 body [] → Staged C module body 0 s (.ok none) s
  | run {k code c s s1 r s'} : AtPhase (k + 1) body code → code ≠ [] →
      FutureImports.inject (phaseIs (k + 1)) (.list code) = .ok c → C.run c module s = (.ok (), s1) →
      Staged C module body k s1 r s' → Staged C module body (k + 1) s r s'
  | fails {k code c s e s'} : AtPhase (k + 1) body code → code ≠ [] →
      FutureImports.inject (phaseIs (k + 1)) (.list code) = .ok c → C.run c module s = (.error e, s') →
      Staged C module body (k + 1) s (.error e) s'
  | skip {k s r s'} : AtPhase (k + 1) body [] → Staged C module body k s r s' →
      Staged C module body (k + 1) s r s'
  /-- only if the code is not as the parser makes it -/
  | malformed {k code s e} : AtPhase k body code →
      FutureImports.inject (phaseIs k) (.list code) = .error e → Staged C module body k s (.error e) s

/-- Statements as the parser makes them, as far as it matters here, and the phase number is written as
in the documentation, `with phase[n]` (and not as `with phase[n,]`, see `C39_tuple_violated`). -/
def Parsed (body : List Val) : Prop :=
  ∀ t ∈ body, (t.isK .With = true → ∃ items b, t.get? .items = some (.list items) ∧
      t.get? .body = some (.list b) ∧ ∀ item ∈ items, ∃ c, item.get? .context_expr = some c ∧
        (c.isK .Subscript = true → ∃ v a, c.get? .value = some v ∧ c.get? .slice = some a ∧
          Expander.fieldsOk v = true ∧ Expander.fieldsOk a = true ∧ (a.isK .Constant = true → (a.get? .value).isSome) ∧
          (v.get? .id = some (.str "phase") → a.isK .Tuple = false)))

end Mcpyrate.Multiphase
