import Verif.Spec.QuasiquoteMacro
import Verif.Spec.QuoteOpsExample
import Verif.Lemmas.ExpanderKept
import Verif.Lemmas.Invocation
/-
Quoted code for the concrete cases beside the theorems of C58.
-/
namespace Mcpyrate.QuoteOps.Ex
open Py Expander

/-- `[y, u[three], a[lst], h[value]]` -/
def display : Val :=
  mk .List [(.elts, .list [name "y", op "u" (name "three"), op "a" (name "lst"), op "h" (name "value")]), (.ctx, mk .Load [])]

/-- `x` as a statement. -/
def stmt (x : Val) : Val := mk .Expr [(.value, x)]

def inert (u : Val) : Bool := !u.isK .Subscript && !u.isK .With && !u.isK .FunctionDef && !u.isK .ClassDef

theorem notName (i : Nat) : (env.macros i).isName = false := by
  rcases i with _ | _ | _ | _ | _ | _ | _ | i <;> rfl

theorem not_invocation {w : W Unit} {u : Val} (h : inert u = true) : ¬ Invocation env w u := by
  simp only [inert, Bool.and_eq_true, Bool.not_eq_true'] at h
  obtain ⟨⟨⟨h1, h2⟩, h3⟩, h4⟩ := h
  intro hi
  cases hi with
  | expr h => rw [h1] at h; cases h
  | block h => rw [h2] at h; cases h
  | decorator h => rcases h with h | h <;> simp_all
  | name _ _ _ _ h => rw [notName] at h; cases h

theorem quotable_display (n : Nat) : Quotable env (inner n) display := quotable_of rfl (by decide +kernel)

/-- `a[q[u[three]]]` -/
def requoted : Val := op "a" (op "q" (op "u" (name "three")))

theorem quotable_requoted (n : Nat) : Quotable env (inner n) requoted := quotable_of rfl (by decide +kernel)

theorem source_requoted : Source requoted := ⟨by decide +kernel, by decide +kernel, by decide +kernel⟩

theorem source_display : Source display := ⟨by decide +kernel, by decide +kernel, by decide +kernel⟩

theorem captures_of {w w0 : W Unit} {t : Val}
    (h : (preorder t).all (fun u => match u.get? .slice with
      | some x => !x.isK .Starred && match x.get? .id with | some (.const (.str k)) => (isbound w0 k).isNone | _ => true
      | none => true) = true) : Captures lib env w w0 t := by
  rintro u op x hu hb
  obtain ⟨k, a, c, hi, hs, rfl⟩ := hb
  cases hi with
  | expr hk _ _ _ hsl =>
    have := List.all_eq_true.mp h u (reach_mem_preorder hu (isK_isAST hk))
    rw [hsl] at this
    dsimp only at this
    simp only [Bool.and_eq_true, Bool.not_eq_true'] at this
    refine ⟨this.1, fun _ k _ hid => ?_⟩
    have h2 := this.2
    dsimp only at hid
    rw [hid] at h2
    exact Option.isNone_iff_eq_none.mp h2
  | block h => cases hs
  | decorator => cases hs
  | name => cases hs

theorem captures_display (n : Nat) : Captures lib env (inner n) (world n) display := captures_of (by
  have : ∀ (k : String), isbound (world n) k = isbound (world 0) k := fun k => rfl
  simp only [this]
  decide +kernel)

theorem captures_requoted (n : Nat) : Captures lib env (inner n) (world n) requoted := captures_of (by
  have : ∀ (k : String), isbound (world n) k = isbound (world 0) k := fun k => rfl
  simp only [this]
  decide +kernel)

theorem quotable_stmt (n : Nat) : Quotable env (inner n) (stmt display) := quotable_of rfl (by decide +kernel)

theorem source_stmts : Source (.list [stmt display, stmt display]) :=
  ⟨by decide +kernel, by decide +kernel, by decide +kernel⟩

theorem captures_stmts (n : Nat) : Captures lib env (inner n) (world n) (.list [stmt display, stmt display]) := captures_of (by
  have : ∀ (k : String), isbound (world n) k = isbound (world 0) k := fun k => rfl
  simp only [this]
  decide +kernel)

/-- The value of the expression that a macro returned, projected. -/
def valueOf (x : Option (Except Exc Ret × Expander.St (User Unit))) : Option (Except Err Obj) :=
  match x with
  | some (.ok (.val v), _) => Quotes.Ex.result (Quotes.eval Quotes.Ex.host (.ofVal v))
  | _ => none

/-- `[h[m], u[three], h[m]]` -/
def capturing : Val :=
  mk .List [(.elts, .list [op "h" (name "m"), op "u" (name "three"), op "h" (name "m")]), (.ctx, mk .Load [])]

theorem quotable_capturing (n : Nat) : Quotable env (inner n) capturing := quotable_of rfl (by decide +kernel)

theorem quotable_capturing_stmt (n : Nat) : Quotable env (inner n) (stmt capturing) := quotable_of rfl (by decide +kernel)

theorem source_capturing : Source capturing := ⟨by decide +kernel, by decide +kernel, by decide +kernel⟩

theorem source_capturing_stmt : Source (.list [stmt capturing]) :=
  ⟨by decide +kernel, by decide +kernel, by decide +kernel⟩

theorem unstarred_of {w : W Unit} {t : Val}
    (h : (preorder t).all (fun u => match u.get? .slice with | some x => !x.isK .Starred | none => true) = true) :
    Unstarred lib env w t := by
  rintro u op x hu hb
  obtain ⟨k, a, c, hi, hs, rfl⟩ := hb
  cases hi with
  | expr hk _ _ _ hsl =>
    have := List.all_eq_true.mp h u (reach_mem_preorder hu (isK_isAST hk))
    rw [hsl] at this
    simpa using this
  | block h => cases hs
  | decorator => cases hs
  | name => cases hs

theorem unstarred_capturing (n : Nat) : Unstarred lib env (inner n) capturing := unstarred_of (by decide +kernel)

end Mcpyrate.QuoteOps.Ex
