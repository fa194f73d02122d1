import Verif.Spec.Keeps
import Verif.Lemmas.Expander
/-
Something about the bindings or the state of user code that every macro function leaves as it was when it ends, is the
same after a visit as before.
-/
namespace Mcpyrate.Expander
open Py

variable {υ α : Type}

theorem keeps_rel {f : World υ → α} (hf : Local f) :
    Rel (fun _ => False) (fun s s' : St υ => f s'.world = f s.world) where
  refl _ := rfl
  trans h1 h2 := h2.trans h1
  log _ _ _ _ _ _ := rfl
  put _ _ h := h.elim
  mode _ _ _ h := h
  hook _ _ _ h := h
  depth _ _ h := h
  new _ _ _ h := hf _ _ _ h

theorem run_ends {f : World υ → α} (hf : Local f) {vis : Val → X υ Val}
    (hv : ∀ t, Pres (fun s s' : St υ => f s'.world = f s.world) (vis t)) (p : Prog υ) (x y : α)
    (hp : p.Ends f x y) (s : St υ) (hs : f s.world = x) :
    M.Post (run vis p) s fun _ s' => f s'.world = y := by
  have hR := keeps_rel (υ := υ) hf
  induction p generalizing x y s with
  | ret r => unfold run; rw [M.post_pure]; exact hs.trans hp
  | raise e => unfold run; rw [M.post_throw]; exact hs.trans hp
  | visit mode t k ih =>
    unfold run
    rw [M.post_bind, M.post_attempt]
    exact (visitMode_pres hR.toStep hv mode t s).mono fun r s1 h1 => ih r x y (hp r) s1 (h1.trans hs)
  | withHook h body k ihb ih =>
    obtain ⟨z, hb, hk⟩ := hp
    unfold run
    rw [M.post_bind, M.post_attempt]
    unfold Expander.withHook
    rw [M.post_bracket]
    exact (ihb x z hb { s with hook := some h } hs).mono fun r s1 h1 => ih r z y (hk r) _ h1
  | get k ih =>
    unfold run
    rw [M.post_bind, M.post_get]
    exact ih _ _ _ _ (hp _ _ hs) s hs
  | put w k ih =>
    unfold run
    rw [M.post_bind, M.post_modify]
    exact ih _ _ hp _ rfl
  | visitNew b t k ih =>
    unfold run
    rw [M.post_bind, M.post_attempt]
    exact (Pres.withNew hR b (hv t) s).mono fun r s1 h1 => ih r x y (hp r) s1 (h1.trans hs)
  | hang => exact M.post_diverge

theorem keeps_user {f : World υ → α} (hf : Local f) {E : Env υ} (hE : E.Keeps f) (vis : Val → X υ Val)
    (hv : ∀ t, Pres (fun s s' : St υ => f s'.world = f s.world) (vis t)) :
    UserPres (fun s s' : St υ => f s'.world = f s.world) E vis := by
  constructor
  · intro i a s _
    unfold runNested
    rw [M.post_bracket]
    exact run_ends hf hv _ _ _ (hE.macros i a _) _ rfl
  · intro i t r n s _
    unfold runNested
    rw [M.post_bracket]
    exact run_ends hf hv _ _ _ (hE.hooks i t r n _) _ rfl

/-- What all user code keeps, every visit keeps. -/
theorem visit_keeps {f : World υ → α} (hf : Local f) {E : Env υ} (hE : E.Keeps f) (n : Nat) (t : Val) :
    Pres (fun s s' : St υ => f s'.world = f s.world) (visit E n t) :=
  visit_pres_of (keeps_rel hf).toStep (keeps_user hf hE) n t

theorem bindings_local : Local (bindings (υ := υ)) := by
  intro w w' b h
  simp only [bindings, Prod.mk.injEq] at h ⊢
  exact ⟨trivial, h.2⟩

end Mcpyrate.Expander
