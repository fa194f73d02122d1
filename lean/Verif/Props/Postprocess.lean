import Verif.Lemmas.Postprocess
/-
C27 postprocessors run once each, in registration order.
-/
namespace Mcpyrate
open Py Expander Postprocess
variable {υ : Type}

/-- C27: each registered postprocessor is in the list once. -/
theorem C27_once (ops : List Op) : (registry ops).Nodup := by
  induction ops using snoc_induction with
  | h0 => simp [registry]
  | h1 ops o ih =>
    rw [registry_snoc]
    cases o with
    | add f =>
      rw [step_add]
      split
      · exact ih
      · rename_i hf
        rw [List.nodup_append]
        refine ⟨ih, by simp, ?_⟩
        intro a ha b hb
        simp only [List.mem_singleton] at hb
        subst hb
        rintro rfl
        exact hf ha
    | remove f =>
      rw [step_remove]
      split
      · exact ih.erase f
      · exact ih

/-- C27: the list consists of the postprocessors that were added and not removed since. -/
theorem C27_members (ops : List Op) (f : Nat) : f ∈ registry ops ↔ Registered ops f := by
  induction ops using snoc_induction with
  | h0 => simp [registry, not_registered_nil]
  | h1 ops o ih =>
    rw [registry_snoc]
    cases o with
    | add g =>
      rw [registered_snoc_add, ← ih]
      rw [step_add]
      split
      · rename_i hg
        constructor
        · exact .inr
        · rintro (rfl | h)
          · exact hg
          · exact h
      · simp [or_comm]
    | remove g =>
      rw [registered_snoc_remove, ← ih]
      have hn := C27_once ops
      rw [step_remove]
      split
      · exact hn.mem_erase_iff
      · rename_i hg
        constructor
        · intro h; exact ⟨by rintro rfl; exact hg h, h⟩
        · exact And.right

/-- C27: the list is in the order in which the postprocessors were added (for one that was removed and
added again: the last time). -/
theorem C27_order (ops : List Op) (f g : Nat) (hf : Registered ops f) (hg : Registered ops g) :
    Before (registry ops) f g ↔ Earlier ops f g := by
  suffices h : ∀ ops f g, Before (registry ops) f g ↔
      Registered ops f ∧ Registered ops g ∧ Earlier ops f g from
    ⟨fun h' => ((h ops f g).mp h').2.2, fun h' => (h ops f g).mpr ⟨hf, hg, h'⟩⟩
  clear hf hg
  intro ops f g
  induction ops using snoc_induction with
  | h0 =>
    constructor
    · rintro ⟨a, b, c, h⟩; simp [registry] at h
    · rintro ⟨h, -⟩; exact absurd h (not_registered_nil f)
  | h1 ops o ih =>
    rw [registry_snoc]
    cases o with
    | add x =>
      rw [registered_snoc_add, registered_snoc_add]
      have hE : Earlier (ops ++ [.add x]) f g ↔
          Earlier ops f g ∨ (Registered (ops ++ [.add x]) f ∧ ¬ Registered (ops ++ [.add x]) g) := by
        constructor
        · rintro ⟨pre, post, h, h1, h2, h3⟩
          rcases List.eq_nil_or_concat post with rfl | ⟨q, y, rfl⟩
          · rw [List.append_nil] at h; subst h; exact .inr ⟨h1, h3⟩
          · rw [List.concat_eq_append, ← List.append_assoc] at h
            obtain ⟨h4, -⟩ := List.append_inj' h (by simp)
            exact .inl ⟨pre, q, h4, h1, fun hq => h2 (by simp [hq]), h3⟩
        · rintro (⟨pre, post, h, h1, h2, h3⟩ | ⟨h1, h2⟩)
          · exact ⟨pre, post ++ [.add x], by simp [h], h1, by simp [h2], h3⟩
          · exact ⟨_, [], by simp, h1, by simp, h2⟩
      rw [hE, registered_snoc_add, registered_snoc_add]
      have m1 := C27_members ops f
      have m2 := C27_members ops x
      have m3 := C27_members ops g
      rw [step_add]
      split
      · rename_i hx
        rw [ih]
        constructor
        · rintro ⟨h1, h2, h3⟩; exact ⟨.inr h1, .inr h2, .inl h3⟩
        · rintro ⟨h1, h2, h3⟩
          have h1' : Registered ops f := by
            rcases h1 with rfl | h1
            · exact m2.mp hx
            · exact h1
          have h2' : Registered ops g := by
            rcases h2 with rfl | h2
            · exact m2.mp hx
            · exact h2
          refine ⟨h1', h2', ?_⟩
          rcases h3 with h3 | h3
          · exact h3
          · exact absurd (Or.inr h2') h3.2
      · rename_i hx
        rw [before_snoc, ih]
        constructor
        · rintro (⟨h1, h2, h3⟩ | ⟨h1, rfl⟩)
          · exact ⟨.inr h1, .inr h2, .inl h3⟩
          · refine ⟨.inr (m1.mp h1), .inl rfl, .inl ?_⟩
            exact ⟨ops, [], by simp, m1.mp h1, by simp, fun h => hx (m2.mpr h)⟩
        · rintro ⟨h1, h2, h3⟩
          rcases h3 with h3 | ⟨-, h3⟩
          · have h1' : Registered ops f := by
              obtain ⟨pre, post, h, ⟨p1, p2, h4, h5⟩, h6, -⟩ := h3
              exact ⟨p1, p2 ++ post, by rw [h, h4]; simp, by simp [h5, h6]⟩
            rcases h2 with rfl | h2
            · exact .inr ⟨m1.mpr h1', rfl⟩
            · exact .inl ⟨h1', h2, h3⟩
          · exact absurd h2 h3
    | remove x =>
      rw [registered_snoc_remove, registered_snoc_remove]
      have hE : f ≠ x → g ≠ x → (Earlier (ops ++ [.remove x]) f g ↔
          Earlier ops f g ∨ (Registered ops f ∧ ¬ Registered ops g)) := by
        intro hfx hgx
        constructor
        · rintro ⟨pre, post, h, h1, h2, h3⟩
          rcases List.eq_nil_or_concat post with rfl | ⟨q, y, rfl⟩
          · rw [List.append_nil] at h; subst h
            rw [registered_snoc_remove] at h1 h3
            exact .inr ⟨h1.2, fun h => h3 ⟨hgx, h⟩⟩
          · rw [List.concat_eq_append, ← List.append_assoc] at h
            obtain ⟨h4, -⟩ := List.append_inj' h (by simp)
            exact .inl ⟨pre, q, h4, h1, fun hq => h2 (by simp [hq]), h3⟩
        · rintro (⟨pre, post, h, h1, h2, h3⟩ | ⟨h1, h2⟩)
          · exact ⟨pre, post ++ [.remove x], by simp [h], h1, by simp [h2, hfx], h3⟩
          · exact ⟨ops, [.remove x], rfl, h1, by simp [hfx], h2⟩
      have hb : Before (step (registry ops) (.remove x)) f g ↔
          Before (registry ops) f g ∧ f ≠ x ∧ g ≠ x := by
        rw [step_remove]
        split
        · exact before_erase (C27_once ops)
        · rename_i hx
          constructor
          · intro h
            have := before_mem h
            exact ⟨h, by rintro rfl; exact hx this.1, by rintro rfl; exact hx this.2⟩
          · exact And.left
      rw [hb, ih]
      constructor
      · rintro ⟨⟨h1, h2, h3⟩, h4, h5⟩
        exact ⟨⟨h4, h1⟩, ⟨h5, h2⟩, (hE h4 h5).mpr (.inl h3)⟩
      · rintro ⟨⟨h4, h1⟩, ⟨h5, h2⟩, h3⟩
        refine ⟨⟨h1, h2, ?_⟩, h4, h5⟩
        rcases (hE h4 h5).mp h3 with h | h
        · exact h
        · exact absurd h2 h.2

/-- C27: `global_postprocess` deletes the expander's markers, fixes `ctx`, and then runs the
registered postprocessors in order, each once. -/
theorem C27_applied (p : Cls → Bool) (H : Hooks υ) (hk : KeepRegistry H) (n : Nat) (t : Val)
    (s s' : PSt υ) (r : Except Exc Val) (h : globalPostprocess p H n t s = some (r, s')) :
    (∃ e, liftErr (Markers.deleteMarkers p t) = .error e ∧ r = .error e ∧ s' = s) ∨
    ∃ t1, Markers.deleteMarkers p t = .ok t1 ∧
      ((∃ e, liftErr (FixCtx.fixCtx t1) = .error e ∧ r = .error e ∧ s' = s) ∨
       ∃ t2, FixCtx.fixCtx t1 = .ok t2 ∧ Chain H s.registry t2 s r s') := by
  unfold globalPostprocess at h
  cases h1 : Markers.deleteMarkers p t with
  | error e => rw [h1] at h; cases h; exact .inl ⟨_, rfl, rfl, rfl⟩
  | ok t1 =>
    rw [h1] at h
    refine .inr ⟨t1, rfl, ?_⟩
    change (M.ofExcept (liftErr (FixCtx.fixCtx t1)) >>= _) s = _ at h
    cases h2 : FixCtx.fixCtx t1 with
    | error e => rw [h2] at h; cases h; exact .inl ⟨_, rfl, rfl, rfl⟩
    | ok t2 =>
      rw [h2] at h
      change runHooks H n 0 t2 s = _ at h
      exact .inr ⟨t2, rfl, by simpa using runHooks_chain H hk n 0 t2 s r s' h⟩

/-- C27: `global_postprocess` finishes if every postprocessor does. -/
theorem C27_finishes (p : Cls → Bool) (H : Hooks υ) (hk : KeepRegistry H)
    (ht : ∀ f t s, (H f t s).isSome = true) (t : Val) (s : PSt υ) :
    ∃ n r s', globalPostprocess p H n t s = some (r, s') := by
  refine ⟨s.registry.length + 1, ?_⟩
  unfold globalPostprocess
  cases h1 : Markers.deleteMarkers p t with
  | error e => exact ⟨_, _, rfl⟩
  | ok t1 =>
    change ∃ r s', (M.ofExcept (liftErr (FixCtx.fixCtx t1)) >>= _) s = some (r, s')
    cases h2 : FixCtx.fixCtx t1 with
    | error e => exact ⟨_, _, rfl⟩
    | ok t2 =>
      change ∃ r s', runHooks H _ 0 t2 s = some (r, s')
      have := runHooks_finishes H hk ht (s.registry.length + 1) 0 t2 s (by omega)
      cases hr : runHooks H (s.registry.length + 1) 0 t2 s with
      | none => rw [hr] at this; cases this
      | some q => exact ⟨q.1, q.2, rfl⟩

/-! ### Concrete cases -/

/-- Postprocessor `f` puts the tree into a list with the number `f`; number 9 raises. -/
def exHooks : Hooks (List Nat) := fun f t s =>
  if f = 9 then some (.error (.user 1 true), s)
  else some (.ok (.list [.int f, t]), { s with user := f :: s.user })

example : KeepRegistry exHooks := by
  intro f t s r s' h
  unfold exHooks at h
  split at h <;> cases h <;> rfl

example : registry [.add 1, .add 2, .add 1, .remove 1, .add 3, .add 1, .remove 7] = [2, 3, 1] := by decide
example : Before [2, 3, 1] 3 1 := ⟨[2], [], [], rfl⟩

example : globalPostprocess (fun c => c == .marker "Done") exHooks 5
    (done (mk .Pass [])) ⟨[2, 1], []⟩ =
    some (.ok (.list [.int 1, .list [.int 2, mk .Pass []]]), ⟨[2, 1], [1, 2]⟩) := by decide +kernel

example : globalPostprocess (fun c => c == .marker "Done") exHooks 5
    (mk .Pass []) ⟨[2, 9, 1], []⟩ = some (.error (.user 1 true), ⟨[2, 9, 1], [2]⟩) := by decide +kernel

end Mcpyrate
