import Verif.Spec.QuoteOps
import Verif.Lemmas.ExpanderKeeps
import Verif.Lemmas.ExpanderAgain
import Verif.Lemmas.Unastify
/-
The quasiquote macros restore the quote level, and change nothing else but the state of the quasiquote compiler.
-/
namespace Mcpyrate.QuoteOps
open Py Expander

variable {σ : Type}

/-- Only what belongs to the quasiquote compiler differs. -/
def Same (w w' : W σ) : Prop := bindings w' = bindings w ∧ levels w' = levels w

theorem Same.refl (w : W σ) : Same w w := ⟨rfl, rfl⟩
theorem Same.trans {w w' w'' : W σ} (h : Same w w') (h' : Same w' w'') : Same w w'' :=
  ⟨h'.1.trans h.1, h'.2.trans h.2⟩

/-- `m` changes nothing else. -/
def Mild {α : Type} (m : M Exc (W σ) α) : Prop := ∀ w, M.Post m w fun _ w' => Same w w'

section
variable {α β : Type}
theorem Mild.pure (a : α) : Mild (Pure.pure a : M Exc (W σ) α) := fun w => M.post_pure.mpr (.refl w)
theorem Mild.throw (e : Exc) : Mild (M.throw e : M Exc (W σ) α) := fun w => M.post_throw.mpr (.refl w)
theorem Mild.ofExcept (x : Except Exc α) : Mild (M.ofExcept x : M Exc (W σ) α) := fun w => M.post_ofExcept.mpr (.refl w)
theorem Mild.bind {m : M Exc (W σ) α} {f : α → M Exc (W σ) β} (hm : Mild m) (hf : ∀ a, Mild (f a)) : Mild (m >>= f) := by
  intro w
  rw [M.post_bind]
  refine (hm w).mono fun r w1 h1 => ?_
  cases r with
  | error e => exact h1
  | ok a => exact (hf a w1).mono fun _ _ h2 => h1.trans h2
end

theorem astifyW_mild (L : Lib σ) (t : Val) : Mild (astifyW L t) := by
  intro w r w' h
  unfold astifyW at h
  split at h
  · cases h
  · cases h; exact ⟨rfl, rfl⟩
  · cases h; exact ⟨rfl, rfl⟩

theorem compile_mild (L : Lib σ) (filename : String) (a : MArgs) (t : Val) : Mild (compile L filename a t) := by
  unfold compile
  refine .bind (.ofExcept _) fun _ => .bind (astifyW_mild L _) fun _ => .bind (.ofExcept _) fun _ =>
    .bind (.ofExcept _) fun _ => .bind (.ofExcept _) fun _ => ?_
  split
  · exact .ofExcept _
  · exact .pure _

theorem get_mild {α : Type} {f : W σ → M Exc (W σ) α} (h : ∀ w, Mild (f w)) : Mild (M.get >>= f) := by
  intro w
  rw [M.post_bind, M.post_get]
  exact h w w

theorem finishQuote_mild (L : Lib σ) (filename : String) (a : MArgs) (t : Val) : Mild (finishQuote L filename a t) := by
  unfold finishQuote
  refine get_mild fun w => ?_
  split
  · exact .ofExcept _
  · exact compile_mild L filename a t

theorem finishUnquote_mild (a : MArgs) (emit : Val → Except Exc Val) (t : Val) :
    Mild (σ := σ) (finishUnquote a emit t) := by
  unfold finishUnquote
  refine get_mild fun w => ?_
  split
  · exact .ofExcept _
  · exact .ofExcept _

theorem settle_mild {fin : Val → M Exc (W σ) Val} (hf : ∀ t, Mild (fin t)) (r : Except Exc Val) : Mild (settle fin r) := by
  cases r with
  | error e => exact .throw e
  | ok t => exact hf t

/-! ### the quote level -/

theorem levels_local : Local (levels (σ := σ)) := fun _ _ _ h => h

theorem after_ends {fin : Val → M Exc (W σ) Val} (hf : ∀ t, Mild (fin t)) (r : Except Exc Val) (v : Nat)
    (x : List Nat) : (after fin r).Ends levels (v :: x) x := by
  intro _ w hw
  show (conclude (settle fin r w)).Ends levels (v :: x) x
  cases hr : settle fin r w with
  | none => trivial
  | some p =>
    obtain ⟨o, w'⟩ := p
    have hs := settle_mild hf r w o w' hr
    have : levels (pop w') = x := by
      have h2 := hs.2
      rw [hw] at h2
      simp only [levels, pop] at h2 ⊢
      rw [h2]; rfl
    cases o <;> exact this

theorem levels_push (v : Nat) (w : W σ) : levels (push v w) = v :: levels w := rfl

theorem quote_ends (L : Lib σ) (filename : String) (a : MArgs) (x : List Nat) :
    (quote L filename a).Ends levels x x := by
  unfold quote
  split
  · intro _ w hw
    intro r
    rw [levels_push, hw]
    exact after_ends (finishQuote_mild L filename a) r _ _
  · rfl

theorem unquote_ends (a : MArgs) (emit : Val → Except Exc Val) (x : List Nat) :
    (unquote (σ := σ) a emit).Ends levels x x := by
  intro _ w hw
  dsimp only
  split
  · rfl
  · intro r
    rw [levels_push, hw]
    exact after_ends (finishUnquote_mild a emit) r _ _

theorem exprUnquote_ends (a : MArgs) (emit : Val → Except Exc Val) (x : List Nat) :
    (exprUnquote (σ := σ) a emit).Ends levels x x := by
  unfold exprUnquote
  split
  · exact unquote_ends a emit x
  · rfl

theorem astUnquote_ends (a : MArgs) (x : List Nat) : (astUnquote (σ := σ) a).Ends levels x x := by
  unfold astUnquote
  split
  · intro _ w hw
    dsimp only
    split
    · rfl
    · split
      · rfl
      · exact unquote_ends a _ x
  · rfl

theorem capture_ends (L : Lib σ) (isName : Nat → Bool) (a : MArgs) (x : List Nat) :
    (capture L isName a).Ends levels x x := by
  unfold capture
  split
  · intro _ w hw
    dsimp only
    split
    · rfl
    · show Prog.Ends levels (levels (push _ w)) x _
      rw [levels_push, hw]
      split
      · exact after_ends (finishUnquote_mild a _) _ _ _
      · split
        · exact after_ends (finishUnquote_mild a _) _ _ _
        · intro r
          exact after_ends (finishUnquote_mild a _) r _ _
  · rfl

theorem opFn_ends (L : Lib σ) (filename : String) (isName : Nat → Bool) (op : Op) (a : MArgs) (x : List Nat) :
    (opFn L filename isName op a).Ends levels x x := by
  cases op with
  | q => exact quote_ends L filename a x
  | u => exact exprUnquote_ends a _ x
  | n => exact exprUnquote_ends a _ x
  | a => exact astUnquote_ends a x
  | s => exact exprUnquote_ends a _ x
  | t => exact exprUnquote_ends a _ x
  | h => exact capture_ends L isName a x

/-- All user code leaves the level as it was, if that which is not part of the quasiquote system does. -/
theorem keeps_levels {L : Lib σ} {E : Env (User σ)} (hL : HasOps L E)
    (hm : ∀ i, (∀ op, i ≠ L.id op) → ∀ a x, ((E.macros i).fn a).Ends levels x x)
    (hh : ∀ i t r n x, (E.hooks i t r n).Ends levels x x) : E.Keeps levels := by
  refine ⟨fun i a x => ?_, hh⟩
  by_cases h : ∃ op, i = L.id op
  · obtain ⟨op, rfl⟩ := h
    rw [hL op]
    exact opFn_ends L _ _ op a x
  · exact hm i (fun op ho => h ⟨op, ho⟩) a x

/-- Evaluate. -/
theorem Runs.of_eval {υ : Type} {E : Env υ} {n : Nat} {mode : Mode} {t : Val} {s : Expander.St υ} {r : Except Exc Val}
    (h : (visitAs E n mode t s).map (·.1) = some r) : ∃ s', Runs E mode t s r s' := by
  cases hv : visitAs E n mode t s with
  | none => rw [hv] at h; cases h
  | some p => rw [hv] at h; cases h; exact ⟨p.2, n, hv⟩

/-! ### outside of quotes -/

/-- An unquote at level zero raises an exception and does nothing else. -/
theorem run_outside (L : Lib σ) (filename : String) (isName : Nat → Bool) {op : Op} (hop : op ≠ .q) (a : MArgs)
    (vis : Val → X (User σ) Val) (s : Expander.St (User σ)) (h0 : value s.world = 0) :
    run vis (opFn L filename isName op a) s = some (.error (.py .syntaxError), s) := by
  have hunq : ∀ emit, run vis (unquote a emit) s = some (.error (.py .syntaxError), s) := by
    intro emit
    unfold unquote
    simp only [run, run_get, h0]
    rfl
  have hexp : ∀ emit, run vis (exprUnquote a emit) s = some (.error (.py .syntaxError), s) := by
    intro emit
    unfold exprUnquote
    split
    · exact hunq emit
    · rfl
  cases op with
  | q => exact absurd rfl hop
  | u => exact hexp _
  | n => exact hexp _
  | s => exact hexp _
  | t => exact hexp _
  | a =>
    show run vis (astUnquote a) s = _
    unfold astUnquote
    split
    · simp only [run, run_get, h0]; rfl
    · rfl
  | h =>
    show run vis (capture L isName a) s = _
    unfold capture
    split
    · simp only [run, run_get, h0]; rfl
    · rfl

theorem bracket_eq {α υ : Type} {en : Expander.St υ → Expander.St υ} {ex : Expander.St υ → Expander.St υ → Expander.St υ}
    {m : X υ α} {s s0 : Expander.St υ} {r : Except Exc α} (h : m (en s) = some (r, s0)) :
    M.bracket en ex m s = some (r, ex s s0) := by
  simp only [M.bracket, h]

theorem expand_outside {L : Lib σ} {E : Env (User σ)} (hL : HasOps L E) {op : Op} (hop : op ≠ .q) {k : String}
    {a : MArgs} {s : Expander.St (User σ)} (vis : Val → X (User σ) Val) (hb : isbound s.world k = some (L.id op))
    (h0 : value s.world = 0) :
    ∃ s', s'.world = s.world ∧
      expand E vis k a s = some (.error (.app (site E a k) (.py .syntaxError)), s') := by
  have h1 : applyMacro E vis (L.id op) k a s =
      some (.error (.py .syntaxError), { s with log := s.log ++ [entry k (L.id op) a s] }) := by
    unfold applyMacro
    rw [run_get]
    have hr := run_outside L E.filename (fun i => (E.macros i).isName) hop a vis (enterMacro k (L.id op) a s) h0
    have hn : runNested vis ((E.macros (L.id op)).fn a) { s with log := s.log ++ [entry k (L.id op) a s] } =
        some (.error (.py .syntaxError), { s with log := s.log ++ [entry k (L.id op) a s] }) := by
      rw [hL op]
      exact bracket_eq (m := run vis (opFn L E.filename (fun i => (E.macros i).isName) op a))
        (s := { s with log := s.log ++ [entry k (L.id op) a s] })
        (en := fun s => { s with depth := s.depth + 1 }) (ex := fun s s' => { s' with depth := s.depth }) hr
    unfold entry at hn
    simp only [Bind.bind, M.bind, M.modify, hn]
    rfl
  refine ⟨{ s with log := s.log ++ [entry k (L.id op) a s] }, rfl, ?_⟩
  · unfold expand
    have h2 : expandTry E vis k a s =
        some (.error (.py .syntaxError), { s with log := s.log ++ [entry k (L.id op) a s] }) := by
      unfold expandTry
      rw [run_get, hb]
      simp only [Bind.bind, M.bind, h1]
    simp only [Bind.bind, M.bind, M.attempt, h2]
    rfl

theorem visit_outside {L : Lib σ} {E : Env (User σ)} (hL : HasOps L E) {op : Op} (hop : op ≠ .q) {t c : Val}
    {k : String} {a : MArgs} {s s' : Expander.St (User σ)} {n : Nat} {r : Except Exc Val} (hw : WellFormed t)
    (hi : Invokes E s.world t k (L.id op) a c) (h0 : value s.world = 0)
    (h : visit E n t s = some (r, s')) :
    s'.world = s.world ∧
      ((BadCall c ∧ r = .error (.py .syntaxError)) ∨ (¬ BadCall c ∧ r = .error (.app (site E a k) (.py .syntaxError)))) := by
  cases n with
  | zero => cases h
  | succ n =>
    obtain ⟨h1, h2, h3⟩ := invokes_node hi
    rw [visit_node h1 h2 (bound_noBindings h3)] at h
    by_cases hc : BadCall c
    · rw [(visitNode_invokes (vis := visit E n) hw hi).2.2 hc] at h
      cases h; exact ⟨rfl, .inl ⟨hc, rfl⟩⟩
    · have hap := (visitNode_invokes (vis := visit E n) hw hi).2.1 hc
      rw [hap] at h
      have hname : a.synt ≠ .name := by
        cases hi with
        | name _ _ _ hb hn => intro _; rw [hL op] at hn; cases hn
        | expr => intro h; cases h
        | block => intro h; cases h
        | decorator => intro h; cases h
      obtain ⟨s1, hs1, hx⟩ := expand_outside hL hop (a := a) (visit E n) h3 h0
      have : expandIn E (visit E n) k a s = some (.error (.app (site E a k) (.py .syntaxError)), s1) := by
        unfold expandIn; rw [if_neg hname]; exact hx
      simp only [Bind.bind, M.bind, this] at h
      cases h; exact ⟨hs1, .inr ⟨hc, rfl⟩⟩

theorem mode_outside {L : Lib σ} {E : Env (User σ)} (hL : HasOps L E) {op : Op} (hop : op ≠ .q) {t c : Val}
    {k : String} {a : MArgs} {s s' : Expander.St (User σ)} {n : Nat} {m : Mode} {r : Except Exc Val} (hw : WellFormed t)
    (hi : Invokes E s.world t k (L.id op) a c) (h0 : value s.world = 0)
    (h : visitAs E n m t s = some (r, s')) :
    s'.world = s.world ∧
      ((BadCall c ∧ r = .error (.py .syntaxError)) ∨ (¬ BadCall c ∧ r = .error (.app (site E a k) (.py .syntaxError)))) := by
  cases m with
  | current => exact visit_outside hL hop hw hi h0 h
  | recursively =>
    obtain ⟨s0, h1, rfl⟩ := bracket_some (m := visit E n t) (en := fun s => { s with recursive := true })
      (ex := fun s s' => { s' with recursive := s.recursive }) h
    have := visit_outside (s := { s with recursive := true }) hL hop hw hi h0 h1
    exact this
  | once =>
    obtain ⟨s0, h1, rfl⟩ := bracket_some (m := visit E n t >>= fun r => pure (done r))
      (en := fun s => { s with recursive := false }) (ex := fun s s' => { s' with recursive := s.recursive }) h
    cases hv : visit E n t { s with recursive := false } with
    | none => simp only [Bind.bind, M.bind, hv] at h1; cases h1
    | some p =>
      obtain ⟨r1, s1⟩ := p
      obtain ⟨h3, h4⟩ := visit_outside (s := { s with recursive := false }) hL hop hw hi h0 hv
      simp only [Bind.bind, M.bind, hv] at h1
      rcases h4 with ⟨hc, rfl⟩ | ⟨hc, rfl⟩
      · cases h1; exact ⟨h3, .inl ⟨hc, rfl⟩⟩
      · cases h1; exact ⟨h3, .inr ⟨hc, rfl⟩⟩

end Mcpyrate.QuoteOps
