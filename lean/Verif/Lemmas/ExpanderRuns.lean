import Verif.Lemmas.ExpanderClean
import Verif.Lemmas.ExpanderEffect
import Verif.Lemmas.ExpanderMono
/-
Calls of the expander that finish (`Runs`).
-/
namespace Mcpyrate.Expander
open Py

variable {υ : Type}

/-- The outcome of a call is unique. -/
theorem Runs.det {E : Env υ} {mode : Mode} {t : Val} {s : St υ} {r r' : Except Exc Val}
    {s1 s2 : St υ} (h : Runs E mode t s r s1) (h' : Runs E mode t s r' s2) : r = r' ∧ s1 = s2 := by
  obtain ⟨n, h⟩ := h
  obtain ⟨m, h'⟩ := h'
  have := visitAs_det h h'
  simpa using this

/-- A visit that changes nothing in any mode. -/
theorem runs_of_visit {E : Env υ} {t v : Val} {s : St υ} {n : Nat} (mode : Mode)
    (h : ∀ b, visit E n t { s with recursive := b } = some (.ok v, { s with recursive := b })) :
    Runs E mode t s (.ok (wrap mode v)) s := by
  refine ⟨n, ?_⟩
  cases mode with
  | current => exact h s.recursive
  | recursively =>
    simp [visitAs, visitMode, withMode, M.bracket, h, wrap]
  | once =>
    simp only [visitAs, visitMode, withMode, M.bracket]
    rw [run_bind (h false)]
    rfl

theorem runs_iff {E : Env υ} {mode : Mode} {t v : Val} {s s' : St υ} {r : Except Exc Val}
    (h : Runs E mode t s (.ok v) s) : Runs E mode t s r s' ↔ r = .ok v ∧ s' = s := by
  constructor
  · intro h'; obtain ⟨h1, h2⟩ := h.det h'; exact ⟨h1.symm, h2.symm⟩
  · rintro ⟨rfl, rfl⟩; exact h

/-- A run of `visit` in some mode behind a run of `visit…`. -/
theorem Runs.toVisit {E : Env υ} {mode : Mode} {t : Val} {s s' : St υ} {r : Except Exc Val}
    (h : Runs E mode t s r s') :
    ∃ n b r0 s0, visit E n t { s with recursive := b } = some (r0, s0) ∧
      s' = { s0 with recursive := s.recursive } ∧ Frame { s with recursive := b } s0 ∧
      (∀ v, r = .ok v → ∃ v0, r0 = .ok v0 ∧ v = wrap mode v0) ∧
      (b = match mode with | .current => s.recursive | .recursively => true | .once => false) := by
  obtain ⟨n, h⟩ := h
  have hf := visit_pres frame_rel E.all_true n t
  cases mode with
  | current =>
    have f := hf _ _ _ h
    exact ⟨n, s.recursive, r, s', h, by rw [← f.recursive], f, by simp [wrap], rfl⟩
  | recursively =>
    simp only [visitAs, visitMode, withMode, M.bracket] at h
    cases hm : visit E n t { s with recursive := true } with
    | none => rw [hm] at h; cases h
    | some p =>
      obtain ⟨r0, s0⟩ := p
      rw [hm] at h; cases h
      exact ⟨n, true, _, s0, hm, rfl, hf _ _ _ hm, by simp [wrap], rfl⟩
  | once =>
    simp only [visitAs, visitMode, withMode, M.bracket, Bind.bind, Pure.pure, M.bind] at h
    cases hm : visit E n t { s with recursive := false } with
    | none => rw [hm] at h; cases h
    | some p =>
      obtain ⟨r0, s0⟩ := p
      rw [hm] at h
      cases r0 with
      | error e => cases h; exact ⟨n, false, _, s0, hm, rfl, hf _ _ _ hm, by simp, rfl⟩
      | ok v => cases h; exact ⟨n, false, _, s0, hm, rfl, hf _ _ _ hm, by simp [wrap], rfl⟩

/-- The relation for C19. -/
theorem bound_rel : Rel (fun _ => True)
    (fun s s' : St υ => Frame s s' ∧ ∀ e ∈ fresh s s', e.bound = some e.fn) where
  refl s := ⟨frame_refl s, by simp [fresh_self]⟩
  trans := by
    rintro a b c ⟨h1, h2⟩ ⟨g1, g2⟩
    refine ⟨h1.trans g1, fun e he => ?_⟩
    rw [fresh_trans h1 g1, List.mem_append] at he
    rcases he with he | he
    · exact h2 e he
    · exact g2 e he
  log s x h1 h2 h3 h4 := ⟨frame_rel.log s x h1 h2 h3 h4, by simp [fresh, h3]⟩
  put s w _ := ⟨frame_rel.put s w trivial, by simp [fresh]⟩
  mode := by rintro s s' b ⟨h1, h2⟩; exact ⟨frame_rel.mode s s' b h1, h2⟩
  hook := by rintro s s' b ⟨h1, h2⟩; exact ⟨frame_rel.hook s s' b h1, h2⟩
  depth := by rintro s s' ⟨h1, h2⟩; exact ⟨frame_rel.depth s s' h1, h2⟩
  new := by rintro s s' b ⟨h1, h2⟩; exact ⟨frame_rel.new s s' b h1, h2⟩

end Mcpyrate.Expander
