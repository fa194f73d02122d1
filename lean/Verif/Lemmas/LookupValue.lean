import Verif.Spec.LookupValue
namespace Mcpyrate
open Py LookupValue
variable {unpickle : List Nat → Except Err Obj}

namespace LookupValue

/-- The cache entries are right for the objects with that `id`, if there are such objects. -/
def Right (unpickle : List Nat → Except Err Obj) (s : State) : Prop :=
  ∀ n i v, s.cache.get (n, i) = some v → ∀ b, s.heap.get i = some b → unpickle b = .ok v

theorem lookup_right {s s' : State} {n : String} {x : Option Nat} {r : Except Err Obj} (h : Right unpickle s)
    (hr : lookupValue unpickle s n x = some (r, s')) :
    r = expected unpickle (contents s x) ∧ Right unpickle s' ∧ s'.heap = s.heap ∧
      (∀ n' j v, s'.cache.get (n', j) = some v → s.cache.get (n', j) = some v ∨ x = some j) := by
  unfold lookupValue at hr
  cases x with
  | none => cases hr; exact ⟨rfl, h, rfl, fun _ _ _ h => .inl h⟩
  | some i =>
    dsimp only at hr
    cases hb : s.heap.get i with
    | none => rw [hb] at hr; cases hr
    | some b =>
      rw [hb] at hr
      have hc : contents s (some i) = some b := hb
      rw [hc]
      dsimp only at hr
      cases hv : s.cache.get (n, i) with
      | some v => rw [hv] at hr; cases hr; exact ⟨(h n i v hv b hb).symm, h, rfl, fun _ _ _ h => .inl h⟩
      | none =>
        rw [hv] at hr
        dsimp only at hr
        cases hu : unpickle b with
        | error e => rw [hu] at hr; cases hr; exact ⟨hu.symm, h, rfl, fun _ _ _ h => .inl h⟩
        | ok v =>
          rw [hu] at hr
          cases hr
          refine ⟨hu.symm, ?_, rfl, ?_⟩
          · intro n' j v' hc b' hb'
            rw [Dict.get_set] at hc
            split at hc
            · rename_i e
              cases hc
              cases e
              rw [hb] at hb'
              cases hb'
              exact hu
            · exact h n' j v' hc b' hb'
          · intro n' j v' hc
            rw [Dict.get_set] at hc
            split at hc
            · rename_i e; cases e; exact .inr rfl
            · exact .inl hc

/-- The objects in the cache are among those seen, and alive; the heap is a proper dict. -/
structure Alive (unpickle : List Nat → Except Err Obj) (seen : List Nat) (s : State) : Prop where
  right : Right unpickle s
  wf : Dict.WF s.heap
  cached : ∀ n i v, s.cache.get (n, i) = some v → i ∈ seen
  live : ∀ i ∈ seen, ∃ b, s.heap.get i = some b

theorem alive_run (es : List Event) : ∀ (seen : List Nat) (s s' : State), Alive unpickle seen s →
    keepsAlive seen es = true → run unpickle s es = some s' → Right unpickle s' := by
  induction es with
  | nil => intro seen s s' h _ hr; cases hr; exact h.right
  | cons e es ih =>
    intro seen s s' h hk hr
    rw [run] at hr
    cases e with
    | alloc i b =>
      unfold step at hr
      dsimp only at hr
      cases hi : s.heap.get i with
      | some _ => rw [hi] at hr; cases hr
      | none =>
        rw [hi] at hr
        refine ih seen { s with heap := s.heap.set i b } s' ⟨?_, Dict.WF_set _ _ _ h.wf, h.cached, ?_⟩ hk hr
        · intro n j v hc b' hb'
          change (s.heap.set i b).get j = _ at hb'
          rw [Dict.get_set] at hb'
          split at hb'
          · rename_i e; subst e
            obtain ⟨b'', hb''⟩ := h.live _ (h.cached n _ v hc)
            rw [hi] at hb''; cases hb''
          · exact h.right n j v hc b' hb'
        · intro j hj
          show ∃ b', (s.heap.set i b).get j = _
          rw [Dict.get_set]
          split
          · exact ⟨b, rfl⟩
          · exact h.live j hj
    | free i =>
      unfold step at hr
      dsimp only at hr
      cases hi : s.heap.get i with
      | none => rw [hi] at hr; cases hr
      | some b =>
        rw [hi] at hr
        simp only [keepsAlive, Bool.and_eq_true, Bool.not_eq_true'] at hk
        have hni : i ∉ seen := fun hm => by
          have := List.contains_iff_mem.2 hm
          rw [hk.1] at this; cases this
        refine ih seen { s with heap := s.heap.del i } s' ⟨?_, Dict.WF_del _ _ h.wf, h.cached, ?_⟩ hk.2 hr
        · intro n j v hc b' hb'
          change (s.heap.del i).get j = _ at hb'
          rw [Dict.get_del _ h.wf] at hb'
          split at hb'
          · cases hb'
          · exact h.right n j v hc b' hb'
        · intro j hj
          show ∃ b', (s.heap.del i).get j = _
          rw [Dict.get_del _ h.wf]
          split
          · rename_i e; subst e; exact absurd hj hni
          · exact h.live j hj
    | lookup n x =>
      unfold step at hr
      dsimp only at hr
      cases hl : lookupValue unpickle s n x with
      | none => rw [hl] at hr; cases hr
      | some q =>
        obtain ⟨r, s1⟩ := q
        rw [hl] at hr
        obtain ⟨-, h1, h2, h3⟩ := lookup_right h.right hl
        cases x with
        | none =>
          refine ih seen s1 s' ⟨h1, by rw [h2]; exact h.wf, ?_, by rw [h2]; exact h.live⟩ hk hr
          intro n' j v hc
          rcases h3 n' j v hc with h4 | h4
          · exact h.cached n' j v h4
          · cases h4
        | some i =>
          have hb : ∃ b, s.heap.get i = some b := by
            cases hb : s.heap.get i with
            | none => simp only [lookupValue, hb] at hl; cases hl
            | some b => exact ⟨b, rfl⟩
          refine ih (i :: seen) s1 s' ⟨h1, by rw [h2]; exact h.wf, ?_, ?_⟩ hk hr
          · intro n' j v hc
            rcases h3 n' j v hc with h4 | h4
            · exact List.mem_cons_of_mem _ (h.cached n' j v h4)
            · cases h4; simp
          · rw [h2]
            intro j hj
            rcases List.mem_cons.1 hj with rfl | hj
            · exact hb
            · exact h.live j hj

/-- The objects seen so far: all live ones; the cache is right for each that was there. -/
structure Reuse (unpickle : List Nat → Except Err Obj) (seen : List (Nat × List Nat)) (s : State) : Prop where
  wf : Dict.WF s.heap
  live : ∀ i b, s.heap.get i = some b → (i, b) ∈ seen
  cached : ∀ n i v, s.cache.get (n, i) = some v → ∃ b, (i, b) ∈ seen ∧ unpickle b = .ok v
  func : ∀ i b b', (i, b) ∈ seen → (i, b') ∈ seen → b = b'

theorem Reuse.right {seen : List (Nat × List Nat)} {s : State} (h : Reuse unpickle seen s) : Right unpickle s := by
  intro n i v hc b hb
  obtain ⟨b', h1, h2⟩ := h.cached n i v hc
  rw [h.func i b b' (h.live i b hb) h1]
  exact h2

theorem reuse_run (es : List Event) : ∀ (seen : List (Nat × List Nat)) (s s' : State), Reuse unpickle seen s →
    noReuse seen es = true → run unpickle s es = some s' → Right unpickle s' := by
  induction es with
  | nil => intro seen s s' h _ hr; cases hr; exact h.right
  | cons e es ih =>
    intro seen s s' h hk hr
    rw [run] at hr
    cases e with
    | alloc i b =>
      unfold step at hr
      dsimp only at hr
      cases hi : s.heap.get i with
      | some _ => rw [hi] at hr; cases hr
      | none =>
        rw [hi] at hr
        simp only [noReuse, Bool.and_eq_true, List.all_eq_true] at hk
        have hsame : ∀ b', (i, b') ∈ seen → b' = b := by
          intro b' hb'
          have := hk.1 _ hb'
          simpa using this
        refine ih ((i, b) :: seen) { s with heap := s.heap.set i b } s' ⟨Dict.WF_set _ _ _ h.wf, ?_, ?_, ?_⟩ hk.2 hr
        · intro j b' hb'
          change (s.heap.set i b).get j = _ at hb'
          rw [Dict.get_set] at hb'
          split at hb'
          · rename_i e; subst e; cases hb'; simp
          · exact List.mem_cons_of_mem _ (h.live j b' hb')
        · intro n j v hc
          obtain ⟨b', h1, h2⟩ := h.cached n j v hc
          exact ⟨b', List.mem_cons_of_mem _ h1, h2⟩
        · intro j c c' hc hc'
          rcases List.mem_cons.1 hc with e | hc <;> rcases List.mem_cons.1 hc' with e' | hc'
          · cases e; cases e'; rfl
          · cases e; exact (hsame c' hc').symm
          · cases e'; exact hsame c hc
          · exact h.func j c c' hc hc'
    | free i =>
      unfold step at hr
      dsimp only at hr
      cases hi : s.heap.get i with
      | none => rw [hi] at hr; cases hr
      | some b =>
        rw [hi] at hr
        refine ih seen { s with heap := s.heap.del i } s' ⟨Dict.WF_del _ _ h.wf, ?_, h.cached, h.func⟩ hk hr
        intro j b' hb'
        change (s.heap.del i).get j = _ at hb'
        rw [Dict.get_del _ h.wf] at hb'
        split at hb'
        · cases hb'
        · exact h.live j b' hb'
    | lookup n x =>
      unfold step at hr
      dsimp only at hr
      cases hl : lookupValue unpickle s n x with
      | none => rw [hl] at hr; cases hr
      | some q =>
        obtain ⟨r, s1⟩ := q
        rw [hl] at hr
        obtain ⟨-, h1, h2, h3⟩ := lookup_right h.right hl
        refine ih seen s1 s' ⟨by rw [h2]; exact h.wf, by rw [h2]; exact h.live, ?_, h.func⟩ hk hr
        intro n' j v hc
        rcases h3 n' j v hc with h4 | h4
        · exact h.cached n' j v h4
        · subst h4
          cases hb : s.heap.get j with
          | none => simp only [lookupValue, hb] at hl; cases hl
          | some b => exact ⟨b, h.live j b hb, h1 n' j v hc b (by rw [h2]; exact hb)⟩

end LookupValue

end Mcpyrate
