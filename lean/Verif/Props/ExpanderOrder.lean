import Verif.Lemmas.ExpanderOrder
import Verif.Spec.ExpanderExample
/-
C22 several macros on one statement.

The order theorems are about macros that leave the remaining items (decorators) in place; a macro that
removes, adds or renames them changes what is there to be expanded next.  (No debug hook.)
-/
namespace Mcpyrate
open Py Expander

variable {υ : Type}

/-- C22: the block macros of a `with` statement apply left to right. -/
theorem C22_block_order (E : Env υ) (t : Val) (L : List (String × Nat)) (s s' : St υ) (r : Val)
    (hw : WellFormed t) (hk : t.isK .With = true) (hbody : (t.get? .body).isSome = true)
    (hL : Macros E s.world (contextExprs t) L) (hkeep : ∀ p ∈ L, KeepsItems E p.2)
    (hh : s.hook = none) (h : Runs E .recursively t s (.ok r) s') :
    ∃ later, applied s s' = L ++ later := by
  obtain ⟨n, h⟩ := h
  unfold visitAs visitMode withMode at h
  obtain ⟨s0, h0, rfl⟩ := bracket_some h
  exact block_order L n t { s with recursive := true } s0 r hw hk hbody hL hkeep hh rfl h0

/-- C22: the decorator macros of a definition apply from the innermost to the outermost. -/
theorem C22_decorator_order (E : Env υ) (t : Val) (L : List (String × Nat)) (s s' : St υ) (r : Val)
    (hw : WellFormed t) (hk : t.isK .FunctionDef = true ∨ t.isK .ClassDef = true)
    (hL : Macros E s.world (decorators t).reverse L) (hkeep : ∀ p ∈ L, KeepsDecorators E p.2)
    (hh : s.hook = none) (h : Runs E .recursively t s (.ok r) s') :
    ∃ later, applied s s' = L ++ later := by
  obtain ⟨n, h⟩ := h
  unfold visitAs visitMode withMode at h
  obtain ⟨s0, h0, rfl⟩ := bracket_some h
  exact decorator_order L n t { s with recursive := true } s0 r hw hk hL hkeep hh rfl h0

/-- `u` is the node `t` but for the field `f`. -/
def SameBut (f : F) (t u : Val) : Prop :=
  locOf u = locOf t ∧ (∀ k, u.isK k = t.isK k) ∧ ∀ g, g ≠ f → u.get? g = t.get? g

theorem sameBut_withField (t v : Val) (f : F) : SameBut f t (withField t f v) := by
  refine ⟨?_, fun k => withField_isK k, fun g hg => withField_get_ne hg⟩
  cases t <;> rfl

/-- C22: the first macro item is popped; the other items keep their order; the `with` statement
disappears exactly when no item is left. -/
theorem C22_block_pop (E : Env υ) (mode : Mode) (t c body : Val) (before after : List Val) (item : Val)
    (k : String) (as : List Val) (id : Nat) (s s' : St υ) (r : Except Exc Val)
    (hw : WellFormed t) (hk : t.isK .With = true)
    (hi : t.get? .items = some (.list (before ++ item :: after)))
    (hb : ∀ i ∈ before, ∀ c, i.get? .context_expr = some c → ¬ Names E s.world c)
    (hc : item.get? .context_expr = some c) (hcand : Candidate c k as) (ha : Accepts E s.world k as id)
    (hbad : ¬ BadCall c) (hbody : t.get? .body = some body) (h : Runs E mode t s r s') :
    ∃ e later, fresh s s' = e :: later ∧ e.name = k ∧ e.fn = id ∧
      (before ++ after = [] → e.margs.tree = body) ∧
      (before ++ after ≠ [] → ∃ w, e.margs.tree = .list [w] ∧ SameBut .items t w ∧
        w.get? .items = some (.list (before ++ after))) := by
  have hinv := Invokes.block (E := E) (w := s.world) hk hi hb hc hcand ha hbody
  obtain ⟨n, b, r0, s0, hv, rfl, -, -, -⟩ := h.toVisit
  cases n with
  | zero => cases hv
  | succ n =>
    obtain ⟨h1, h2, h3⟩ := invokes_node hinv
    have hv' := (visit_node (n := n) (s := { s with recursive := b }) h1 h2 (bound_noBindings h3)).symm.trans hv
    obtain ⟨e, l, he, hn, hf, hm, -⟩ := applies_first (s := { s with recursive := b }) (r := r0) (s' := s0)
      ((visitNode_invokes (s := { s with recursive := b }) (vis := visit E n) hw hinv).2.1 hbad) h3 hv'
    refine ⟨e, l, he, hn, hf, ?_, ?_⟩
    · intro h0; rw [hm]; dsimp only; rw [if_pos h0]
    · intro h0; rw [hm]; dsimp only; rw [if_neg h0]
      exact ⟨_, rfl, sameBut_withField _ _ _, withField_get hi⟩

/-- C22: the innermost macro decorator is popped; the other decorators keep their order. -/
theorem C22_decorator_pop (E : Env υ) (mode : Mode) (t c : Val) (before after : List Val)
    (k : String) (as : List Val) (id : Nat) (s s' : St υ) (r : Except Exc Val)
    (hw : WellFormed t) (hk : t.isK .FunctionDef = true ∨ t.isK .ClassDef = true)
    (hi : t.get? .decorator_list = some (.list (before ++ c :: after)))
    (hb : ∀ i ∈ after, ¬ Names E s.world i) (hcand : Candidate c k as) (ha : Accepts E s.world k as id)
    (hbad : ¬ BadCall c) (h : Runs E mode t s r s') :
    ∃ e later, fresh s s' = e :: later ∧ e.name = k ∧ e.fn = id ∧
      SameBut .decorator_list t e.margs.tree ∧
      e.margs.tree.get? .decorator_list = some (.list (before ++ after)) := by
  have hinv := Invokes.decorator (E := E) (w := s.world) hk hi hb hcand ha
  obtain ⟨n, b, r0, s0, hv, rfl, -, -, -⟩ := h.toVisit
  cases n with
  | zero => cases hv
  | succ n =>
    obtain ⟨h1, h2, h3⟩ := invokes_node hinv
    have hv' := (visit_node (n := n) (s := { s with recursive := b }) h1 h2 (bound_noBindings h3)).symm.trans hv
    obtain ⟨e, l, he, hn, hf, hm, -⟩ := applies_first (s := { s with recursive := b }) (r := r0) (s' := s0)
      ((visitNode_invokes (s := { s with recursive := b }) (vis := visit E n) hw hinv).2.1 hbad) h3 hv'
    refine ⟨e, l, he, hn, hf, ?_, ?_⟩
    · rw [hm]; exact sameBut_withField _ _ _
    · rw [hm]; exact withField_get hi

/-! ### Concrete cases -/
section
open Expander.Ex

/-- `with m, x, g: pass`, where `x` is not a macro -/
def with3 : Val := withStmt [name "m", name "x", name "g"] [pass]

example : (visitAs env 20 .recursively with3 start).map (fun p => applied start p.2) =
    some [("m", 0), ("g", 0)] := by decide +kernel

example : Macros env world (contextExprs with3) [("m", 0), ("g", 0)] := by
  refine .take (.plain rfl rfl) ⟨by decide, by decide, .inl rfl⟩ (.skip ?_ (.take (.plain rfl rfl)
    ⟨by decide, by decide, .inl rfl⟩ .nil))
  rintro ⟨k, as, id, h1, h2⟩
  have hp : Candidate (name "x") "x" [] := .plain rfl rfl
  obtain ⟨rfl, -⟩ := h1.unique hp
  exact absurd h2.2.1 (by simp [show isbound world "x" = none from rfl])

/-- The identity macro keeps the items. -/
example : KeepsItems env 0 := by
  intro n a s ret s' _ h
  cases h
  exact ⟨fun _ => rfl, fun w h1 h2 h3 h4 => ⟨w, by rw [h1], h2, rfl, h4, h3⟩⟩

example : KeepsDecorators env 0 := by
  intro n a s ret s' _ h
  cases h
  exact ⟨fun _ => rfl, fun h1 h2 => ⟨_, rfl, h1, rfl, h2⟩⟩

-- decorators: innermost first
example : (visitAs env 20 .recursively (defStmt [name "m", name "x", name "g"] [pass]) start).map
    (fun p => applied start p.2) = some [("g", 0), ("m", 0)] := by decide +kernel

end
end Mcpyrate
