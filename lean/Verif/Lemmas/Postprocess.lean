import Verif.Spec.Postprocess
namespace Mcpyrate
open Py Expander Postprocess
variable {υ : Type}

theorem registered_snoc_add (ops : List Op) (f g : Nat) :
    Registered (ops ++ [.add g]) f ↔ f = g ∨ Registered ops f := by
  constructor
  · rintro ⟨pre, post, h, hp⟩
    rcases List.eq_nil_or_concat post with rfl | ⟨q, x, rfl⟩
    · left
      have := (List.append_inj' h (by simp)).2
      simpa using this.symm
    · right
      rw [List.concat_eq_append, ← List.cons_append, ← List.append_assoc] at h
      have := List.append_inj' h (by simp)
      exact ⟨pre, q, this.1, fun hq => hp (by simp [hq])⟩
  · rintro (rfl | ⟨pre, post, h, hp⟩)
    · exact ⟨ops, [], rfl, by simp⟩
    · exact ⟨pre, post ++ [.add g], by simp [h], by simpa using hp⟩

theorem registered_snoc_remove (ops : List Op) (f g : Nat) :
    Registered (ops ++ [.remove g]) f ↔ f ≠ g ∧ Registered ops f := by
  constructor
  · rintro ⟨pre, post, h, hp⟩
    rcases List.eq_nil_or_concat post with rfl | ⟨q, x, rfl⟩
    · have := (List.append_inj' h (by simp)).2
      simp at this
    · rw [List.concat_eq_append, ← List.cons_append, ← List.append_assoc] at h
      obtain ⟨h1, h2⟩ := List.append_inj' h (by simp)
      simp only [List.cons.injEq, and_true] at h2
      subst h2
      simp only [List.concat_eq_append, List.mem_append, List.mem_singleton, not_or, Op.remove.injEq] at hp
      exact ⟨hp.2, pre, q, h1, hp.1⟩
  · rintro ⟨hne, pre, post, h, hp⟩
    exact ⟨pre, post ++ [.remove g], by simp [h], by simp [hp, hne]⟩

theorem step_add (l : List Nat) (f : Nat) : step l (.add f) = if f ∈ l then l else l ++ [f] := rfl
theorem step_remove (l : List Nat) (f : Nat) : step l (.remove f) = if f ∈ l then l.erase f else l := rfl

theorem registry_snoc (ops : List Op) (o : Op) : registry (ops ++ [o]) = step (registry ops) o := by
  simp [registry]

theorem snoc_induction {P : List Op → Prop} (h0 : P []) (h1 : ∀ ops o, P ops → P (ops ++ [o]))
    (ops : List Op) : P ops := by
  have : ∀ l : List Op, P l.reverse := by
    intro l
    induction l with
    | nil => exact h0
    | cons o l ih => rw [List.reverse_cons]; exact h1 _ _ ih
  simpa using this ops.reverse

theorem not_registered_nil (f : Nat) : ¬ Registered [] f := by
  rintro ⟨pre, post, h, -⟩
  cases pre <;> cases h

theorem before_append {l m : List Nat} {f g : Nat} (h : Before l f g) : Before (l ++ m) f g := by
  obtain ⟨a, b, c, rfl⟩ := h
  exact ⟨a, b, c ++ m, by simp⟩

theorem before_mem {l : List Nat} {f g : Nat} (h : Before l f g) : f ∈ l ∧ g ∈ l := by
  obtain ⟨a, b, c, rfl⟩ := h
  simp

theorem before_snoc {l : List Nat} {x f g : Nat} :
    Before (l ++ [x]) f g ↔ Before l f g ∨ (f ∈ l ∧ g = x) := by
  constructor
  · rintro ⟨a, b, c, h⟩
    rcases List.eq_nil_or_concat c with rfl | ⟨q, y, rfl⟩
    · obtain ⟨h1, h2⟩ := List.append_inj' h (by simp)
      right
      subst h1
      exact ⟨by simp, by simpa using h2.symm⟩
    · rw [List.concat_eq_append, ← List.cons_append, ← List.append_assoc] at h
      obtain ⟨h1, -⟩ := List.append_inj' h (by simp)
      exact .inl ⟨a, b, q, h1⟩
  · rintro (h | ⟨h, rfl⟩)
    · exact before_append h
    · obtain ⟨a, b, rfl⟩ := List.append_of_mem h
      exact ⟨a, b, [], by simp⟩

theorem before_erase {l : List Nat} {x f g : Nat} (hn : l.Nodup) :
    Before (l.erase x) f g ↔ Before l f g ∧ f ≠ x ∧ g ≠ x := by
  constructor
  · intro h
    have hm := before_mem h
    refine ⟨?_, (hn.mem_erase_iff.mp hm.1).1, (hn.mem_erase_iff.mp hm.2).1⟩
    obtain ⟨a, b, c, h⟩ := h
    by_cases hx : x ∈ l
    · obtain ⟨p, q, rfl⟩ := List.append_of_mem hx
      have hp : x ∉ p := by
        rw [List.nodup_append] at hn
        exact fun h => hn.2.2 x h x (by simp) rfl
      rw [List.erase_append_right _ hp, List.erase_cons_head] at h
      -- `p ++ q = a ++ f :: b ++ g :: c`
      have h' : p ++ q = a ++ (f :: (b ++ g :: c)) := by rw [h]; simp
      rcases List.append_eq_append_iff.mp h' with ⟨d, h1, h2⟩ | ⟨d, h1, h2⟩
      · exact ⟨p ++ x :: d, b, c, by rw [h2]; simp⟩
      · cases d with
        | nil =>
          simp only [List.append_nil, List.nil_append] at h1 h2
          exact ⟨p ++ [x], b, c, by rw [← h2]; simp⟩
        | cons y d =>
          simp only [List.cons_append, List.cons.injEq] at h2
          obtain ⟨rfl, h2⟩ := h2
          rcases List.append_eq_append_iff.mp h2 with ⟨e, h3, h4⟩ | ⟨e, h3, h4⟩
          · cases e with
            | nil =>
              simp only [List.append_nil, List.nil_append] at h3 h4
              subst h3; subst h1
              exact ⟨a, d ++ [x], c, by rw [← h4]; simp⟩
            | cons z e =>
              simp only [List.cons_append, List.cons.injEq] at h4
              obtain ⟨rfl, h4⟩ := h4
              subst h1; subst h3; subst h4
              exact ⟨a, b, e ++ x :: q, by simp⟩
          · subst h1; subst h3; subst h4
            exact ⟨a, d ++ x :: e, c, by simp⟩
    · rw [List.erase_of_not_mem hx] at h
      exact ⟨a, b, c, h⟩
  · rintro ⟨⟨a, b, c, rfl⟩, hf, hg⟩
    by_cases h1 : x ∈ a
    · exact ⟨a.erase x, b, c, by simp [List.erase_append_left _ h1]⟩
    · by_cases h2 : x ∈ b
      · exact ⟨a, b.erase x, c, by
          have : x ∈ f :: b := by simp [h2]
          rw [List.append_assoc, List.erase_append_right _ h1, List.erase_append_left _ this,
            List.erase_cons_tail (by simpa using hf)]
          simp⟩
      · exact ⟨a, b, c.erase x, by
          have : x ∉ f :: b := by simp [h2, Ne.symm hf]
          rw [List.append_assoc, List.erase_append_right _ h1, List.erase_append_right _ this,
            List.erase_cons_tail (by simpa using hg)]
          simp⟩

theorem runHooks_chain (H : Hooks υ) (hk : KeepRegistry H) : ∀ n i t s r s',
    runHooks H n i t s = some (r, s') → Chain H (s.registry.drop i) t s r s' := by
  intro n
  induction n with
  | zero => intro i t s r s' h; cases h
  | succ n ih =>
    intro i t s r s' h
    unfold runHooks at h
    change M.bind M.get _ s = _ at h
    simp only [M.bind, M.get] at h
    cases hi : s.registry[i]? with
    | none =>
      simp only [hi] at h
      cases h
      rw [List.drop_eq_nil_of_le (List.getElem?_eq_none_iff.mp hi)]
      exact .nil _ _
    | some f =>
      simp only [hi] at h
      obtain ⟨hlt, hget⟩ := List.getElem?_eq_some_iff.mp hi
      rw [List.drop_eq_getElem_cons hlt, hget]
      change M.bind (H f t) _ s = _ at h
      unfold M.bind at h
      cases hf : H f t s with
      | none => rw [hf] at h; cases h
      | some p =>
        obtain ⟨r1, s1⟩ := p
        rw [hf] at h
        cases r1 with
        | error e => cases h; exact .error hf
        | ok t1 =>
          have h1 := ih _ _ _ _ _ h
          rw [hk _ _ _ _ _ hf] at h1
          exact .cons hf h1

theorem runHooks_finishes (H : Hooks υ) (hk : KeepRegistry H)
    (ht : ∀ f t s, (H f t s).isSome = true) : ∀ n i t s, s.registry.length - i < n →
    (runHooks H n i t s).isSome = true := by
  intro n
  induction n with
  | zero => intro i t s h; omega
  | succ n ih =>
    intro i t s h
    unfold runHooks
    change (M.bind M.get _ s).isSome = true
    simp only [M.bind, M.get]
    cases hi : s.registry[i]? with
    | none => rfl
    | some f =>
      obtain ⟨hlt, -⟩ := List.getElem?_eq_some_iff.mp hi
      change (M.bind (H f t) _ s).isSome = true
      simp only [M.bind]
      cases hf : H f t s with
      | none => have := ht f t s; rw [hf] at this; cases this
      | some p =>
        obtain ⟨r1, s1⟩ := p
        cases r1 with
        | error e => rfl
        | ok t1 => exact ih (i + 1) t1 s1 (by rw [hk _ _ _ _ _ hf]; omega)

end Mcpyrate
