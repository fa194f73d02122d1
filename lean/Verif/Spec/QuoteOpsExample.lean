import Verif.Spec.QuoteOps
import Verif.Spec.ExpanderExample
import Verif.Spec.QuotesExample
import Verif.Lemmas.Tree
import Verif.Lemmas.Invocation
import Verif.Lemmas.ExpanderSyntax
/-
The quasiquote macros and one more macro, for the concrete cases beside the theorems.
-/
namespace Mcpyrate.QuoteOps.Ex
open Py Expander

def opId : Op → Nat
  | .q => 0 | .u => 1 | .n => 2 | .a => 3 | .s => 4 | .t => 5 | .h => 6

def lib : Lib Unit where
  H := Quotes.Ex.host
  unparse t :=
    match t.get? .id with
    | some (.const (.str k)) => .ok k
    | _ => .ok "<expression>"
  function i := .ext i
  id := opId

/-- `m[e]` expands to `e`. -/
def identity : MacroDef (User Unit) := ⟨false, false, fun a => .ret (.val a.tree)⟩

def isName (_ : Nat) : Bool := false

/-- The quasiquote macros, and `m`. -/
def env : Env (User Unit) where
  macros
    | 0 => ⟨false, false, opFn lib "a.py" isName .q⟩
    | 1 => ⟨false, false, opFn lib "a.py" isName .u⟩
    | 2 => ⟨false, false, opFn lib "a.py" isName .n⟩
    | 3 => ⟨false, false, opFn lib "a.py" isName .a⟩
    | 4 => ⟨false, false, opFn lib "a.py" isName .s⟩
    | 5 => ⟨false, false, opFn lib "a.py" isName .t⟩
    | 6 => ⟨false, false, opFn lib "a.py" isName .h⟩
    | _ => identity
  hooks := fun _ _ _ _ => .ret (.val .none)
  filename := "a.py"
  loc := fun _ => ["a.py:1: x"]

/-- At quote level `n`. -/
def world (n : Nat) : W Unit where
  locals := [("q", 0), ("u", 1), ("n", 2), ("a", 3), ("s", 4), ("t", 5), ("h", 6), ("m", 7)]
  globals := []
  user := ⟨[n], Quotes.Ex.start⟩

/-- In the second expander, inside of a quote. -/
def inner (n : Nat) : W Unit := { world n with locals := quoteBindings lib (world n) }

/-- `k[x]` -/
def op (k : String) (x : Val) : Val := Expander.Ex.sub (name k) x

/-- `with e as v, …: …` -/
def withStmt (l : Loc) (items : List (Val × String)) (body : List Val) : Val :=
  .node (.py .With) l [(.items, .list (items.map fun i =>
      mk .withitem [(.context_expr, i.1), (.optional_vars, mk .Name [(.id, .str i.2), (.ctx, mk .Store [])])])),
    (.body, .list body), (.type_comment, .none)]

theorem isName_eq : (fun i => (env.macros i).isName) = isName := by
  funext i
  rcases i with _ | _ | _ | _ | _ | _ | _ | i <;> rfl

theorem hasOps : HasOps lib env := by
  intro op
  rw [isName_eq]
  cases op <;> rfl

/-- `q[u[u[x]]]` -/
def nested : Val := op "q" (op "u" (op "u" (name "x")))

theorem bound_ops (n : Nat) : ∀ k i, isbound (inner n) k = some i → ∃ op, i = lib.id op := by
  intro k i h
  have hl : (inner n).locals = [("q", 0), ("u", 1), ("n", 2), ("a", 3), ("s", 4), ("t", 5), ("h", 6)] := rfl
  have hg : (inner n).globals = [] := rfl
  unfold isbound at h
  rw [hl, hg] at h
  have hm : (k, i) ∈ [("q", 0), ("u", 1), ("n", 2), ("a", 3), ("s", 4), ("t", 5), ("h", 6)] := by
    apply Dict.get_mem
    simpa [Dict.get_nil] using h
  simp only [List.mem_cons, Prod.mk.injEq, List.not_mem_nil, or_false] at hm
  rcases hm with h | h | h | h | h | h | h
  · exact ⟨.q, h.2⟩
  · exact ⟨.u, h.2⟩
  · exact ⟨.n, h.2⟩
  · exact ⟨.a, h.2⟩
  · exact ⟨.s, h.2⟩
  · exact ⟨.t, h.2⟩
  · exact ⟨.h, h.2⟩

theorem onlyOps (n : Nat) (t : Val) : OnlyOps lib env (inner n) t :=
  ⟨fun _ _ _ _ _ _ h => bound_ops n _ _ (invokes_node h).2.2, fun i _ => congrFun isName_eq i⟩

theorem localOps (n : Nat) : LocalOps lib (inner n) := fun k i h => bound_ops n k i (by unfold isbound; rw [h]; rfl)

/-- The same, with `m` among the global bindings; and also with the name of the library bound to it. -/
def innerGlobal (n : Nat) : W Unit := { inner n with globals := [("m", 7), ("mcpyrate", 7)] }

theorem localOps_global (n : Nat) : LocalOps lib (innerGlobal n) := localOps n

/-- Of the macros, only `q` and `u` are invoked by this node, as expression macros. -/
def callsOps (u : Val) : Bool :=
  !u.isK .With && !u.isK .FunctionDef && !u.isK .ClassDef &&
    (!u.isK .Subscript || match u.get? .value with
      | some (.node (.py .Name) _ [(.id, .const (.str k)), _]) => k == "q" || k == "u"
      | _ => false)

theorem onlyOps_global (n : Nat) {t : Val} (h : (preorder t).all callsOps = true) : OnlyOps lib env (innerGlobal n) t := by
  refine ⟨fun u hu k i a c hi => ?_, fun i _ => congrFun isName_eq i⟩
  have hc := List.all_eq_true.mp h u (reach_mem_preorder hu (invokes_node hi).1)
  have hb := (invokes_node hi).2.2
  simp only [callsOps, Bool.and_eq_true, Bool.not_eq_true', Bool.or_eq_true] at hc
  obtain ⟨⟨⟨h1, h2⟩, h3⟩, h4⟩ := hc
  cases hi with
  | expr hk hv hcand ha hs =>
    rcases h4 with h4 | h4
    · rw [hk] at h4; cases h4
    · rw [hv] at h4
      split at h4
      · rename_i heq
        cases heq
        cases hcand with
        | plain _ hid =>
          cases hid
          simp only [Bool.or_eq_true, beq_iff_eq] at h4
          rcases h4 with rfl | rfl
          · exact ⟨.q, (Option.some.inj hb).symm⟩
          · exact ⟨.u, (Option.some.inj hb).symm⟩
        | bracket hk' => cases hk'
        | brackets hk' => cases hk'
        | parens hk' => cases hk'
      · cases h4
  | block hk => rw [hk] at h1; cases h1
  | decorator hk => rcases hk with hk | hk <;> simp [hk] at h2 h3
  | name _ _ _ _ hn => rw [show (env.macros i).isName = false from congrFun isName_eq i] at hn; cases hn

/-- What `Quotable` asks for, as a test. -/
def orderly (u : Val) : Bool :=
  fieldsOk u && nestingOk u && !u.isK .With &&
    (match u.get? .slice with | some v => v.isAST | none => true) &&
    (match u with
      | .node (.marker _) _ _ => false
      | .node _ _ fs => fs.all fun p => match p.2 with
        | .list xs => xs.all fun x => match x with | .list _ => false | _ => true
        | _ => true
      | _ => true)

theorem quotable_of {w : W Unit} {t : Val} (ha : t.isAST = true) (h : (preorder t).all orderly = true) :
    Quotable env w t := by
  have key : ∀ u, Reach t u → u.isAST = true → orderly u = true := fun u hu hua =>
    List.all_eq_true.mp h u (reach_mem_preorder hu hua)
  refine ⟨ha, ⟨fun u hu => ?_, fun u hu => ?_⟩, fun u hu hk v hv => ?_, ?_, ?_, fun u hu hk => ?_⟩
  · cases hua : u.isAST with
    | true => have := key u hu hua; simp only [orderly, Bool.and_eq_true] at this; exact this.1.1.1.1
    | false => cases u <;> first | rfl | cases hua
  · cases hua : u.isAST with
    | true => have := key u hu hua; simp only [orderly, Bool.and_eq_true] at this; exact this.1.1.1.2
    | false => cases u <;> first | rfl | cases hua
  · have := key u hu (isK_isAST hk)
    simp only [orderly, Bool.and_eq_true] at this
    have h1 := this.1.2
    rw [hv] at h1
    exact h1
  · rintro u hu c l fs rfl f xs hx ys hy
    have := key _ hu rfl
    simp only [orderly, Bool.and_eq_true] at this
    have h1 := this.2
    cases c with
    | marker => cases h1
    | py k =>
      have h2 := List.all_eq_true.mp h1 _ hx
      have h3 := List.all_eq_true.mp h2 _ hy
      cases h3
  · rintro u hu nm l fs rfl
    have := key _ hu rfl
    simp [orderly] at this
  · have := key u hu (isK_isAST hk)
    simp [orderly, hk] at this

theorem quotable (n : Nat) : Quotable env (inner n) nested := quotable_of rfl (by decide +kernel)

end Mcpyrate.QuoteOps.Ex
