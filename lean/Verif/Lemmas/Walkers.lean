import Verif.Spec.Walkers
namespace Mcpyrate.Walkers
open Py
variable {ν ρ ε : Type}

/-- What one step of walker code guarantees about the walker afterwards. -/
structure Good (w w' : W ν) : Prop where
  ok : Ok w'
  tail : w'.stack.tail = w.stack.tail
  grow : w.heap.length ≤ w'.heap.length
  frame : ∀ r, r < w.heap.length → ¬ Pending w r → w.stack.head? ≠ some r →
    w'.heap[r]? = w.heap[r]? ∧ ¬ Pending w' r ∧ w'.stack.head? ≠ some r
  collected : w.collected <+: w'.collected

theorem Good.refl {w : W ν} (h : Ok w) : Good w w :=
  ⟨h, rfl, Nat.le_refl _, fun _ _ h1 h2 => ⟨rfl, h1, h2⟩, List.prefix_refl _⟩

theorem Good.trans {a b c : W ν} (h1 : Good a b) (h2 : Good b c) : Good a c := by
  refine ⟨h2.ok, h2.tail.trans h1.tail, Nat.le_trans h1.grow h2.grow, ?_, h1.collected.trans h2.collected⟩
  intro r hr hp hh
  obtain ⟨e1, p1, q1⟩ := h1.frame r hr hp hh
  obtain ⟨e2, p2, q2⟩ := h2.frame r (Nat.lt_of_lt_of_le hr h1.grow) p1 q1
  exact ⟨e2.trans e1, p2, q2⟩

theorem mem_set {d : Dict Obj Nat} {t : Obj} {r : Nat} {p} (h : p ∈ Dict.set d t r) :
    p ∈ d ∨ p = (t, r) := by
  induction d with
  | nil => simp [Dict.set] at h; exact Or.inr h
  | cons q d ih =>
    obtain ⟨k, v⟩ := q
    simp only [Dict.set] at h
    split at h
    · simp only [List.mem_cons] at h
      rcases h with h | h
      · exact Or.inr h
      · simp [h]
    · simp only [List.mem_cons] at h
      rcases h with h | h
      · simp [h]
      · rcases ih h with h | h
        · simp [h]
        · exact Or.inr h

theorem mem_register {ts : List Obj} {r : Nat} {d : Dict Obj Nat} {p}
    (h : p ∈ register ts r d) : p ∈ d ∨ p.2 = r := by
  induction ts generalizing d with
  | nil => exact Or.inl h
  | cons t ts ih =>
    rcases ih h with h | h
    · rcases mem_set h with h | h
      · exact Or.inl h
      · exact Or.inr (by rw [h])
    · exact Or.inr h

theorem mem_del {d : Dict Obj Nat} {t : Obj} {p} (h : p ∈ Dict.del d t) : p ∈ d := by
  induction d with
  | nil => simp [Dict.del] at h
  | cons q d ih =>
    obtain ⟨k, v⟩ := q
    simp only [Dict.del] at h
    split at h
    · simp [h]
    · simp only [List.mem_cons] at h
      rcases h with h | h
      · simp [h]
      · simp [ih h]

/-- `visitF` behaves. -/
def VisitGood (visitF : Obj → W ν → Option (Except ε ρ × W ν)) : Prop :=
  ∀ t w r w', Ok w → visitF t w = some (r, w') → Good w w'

theorem run_good {visitF : Obj → W ν → Option (Except ε ρ × W ν)} (hv : VisitGood visitF)
    (p : Prog ν ρ ε) (hp : p.KeepsNonempty) (w : W ν) (hw : Ok w) (r w')
    (h : run visitF p w = some (r, w')) : Good w w' := by
  induction p generalizing w with
  | ret r => simp only [run, Option.some.injEq, Prod.mk.injEq] at h; obtain ⟨_, rfl⟩ := h; exact .refl hw
  | raise e => simp only [run, Option.some.injEq, Prod.mk.injEq] at h; obtain ⟨_, rfl⟩ := h; exact .refl hw
  | read k ih =>
    simp only [run] at h
    split at h
    · simp at h
    · split at h
      · simp at h
      · exact ih _ (hp _) w hw h
  | write f k ih =>
    simp only [run] at h
    split at h
    · simp at h
    · rename_i top rest hst
      split at h
      · simp at h
      · rename_i s hs
        have hok : Ok { w with heap := w.heap.set top (f s) } := by
          refine ⟨hw.stack_ne, ?_, ?_, ?_⟩
          · simpa using hw.stack_valid
          · simpa using hw.overrides_valid
          · intro x hx
            rcases List.mem_or_eq_of_mem_set hx with hx | hx
            · exact hw.nonempty x hx
            · rw [hx]
              exact hp.1 s (hw.nonempty s (List.mem_of_getElem? hs))
        have hg : Good w { w with heap := w.heap.set top (f s) } := by
          refine ⟨hok, rfl, by simp, ?_, List.prefix_refl _⟩
          intro r hr h1 h2
          refine ⟨?_, h1, h2⟩
          have : top ≠ r := by rintro rfl; simp [hst] at h2
          simp [List.getElem?_set, this]
        exact hg.trans (ih hp.2 _ hok h)
  | rebind s k ih =>
    simp only [run] at h
    split at h
    · simp at h
    · rename_i top rest hst
      have hok : Ok { w with heap := w.heap ++ [s], stack := w.heap.length :: rest } := by
        refine ⟨by simp, ?_, ?_, ?_⟩
        · intro r hr
          simp only [List.mem_cons] at hr
          simp only [List.length_append, List.length_singleton]
          rcases hr with hr | hr
          · omega
          · have := hw.stack_valid r (by simp [hst, hr]); omega
        · intro t r hr
          have := hw.overrides_valid t r hr
          simp; omega
        · intro x hx
          simp only [List.mem_append, List.mem_singleton] at hx
          rcases hx with hx | hx
          · exact hw.nonempty x hx
          · rw [hx]; exact hp.1
      have hg : Good w { w with heap := w.heap ++ [s], stack := w.heap.length :: rest } := by
        refine ⟨hok, by simp [hst], by simp, ?_, List.prefix_refl _⟩
        intro r hr h1 h2
        refine ⟨?_, h1, ?_⟩
        · simp [List.getElem?_append, hr]
        · simp; omega
      exact hg.trans (ih hp.2 _ hok h)
  | withstate ts b k ih =>
    simp only [run] at h
    split at h
    · simp at h
    · rename_i top rest hst
      split at h
      · simp at h
      · rename_i s hs
        have hok : Ok { w with heap := w.heap ++ [Dict.update s b],
                               overrides := register ts w.heap.length w.overrides } := by
          refine ⟨hw.stack_ne, ?_, ?_, ?_⟩
          · intro r hr
            have := hw.stack_valid r hr
            simp; omega
          · intro t r hr
            simp only [List.length_append, List.length_singleton]
            rcases mem_register hr with hr | hr
            · have := hw.overrides_valid t r hr; omega
            · simp at hr; omega
          · intro x hx
            simp only [List.mem_append, List.mem_singleton] at hx
            rcases hx with hx | hx
            · exact hw.nonempty x hx
            · rw [hx]
              exact Dict.update_ne_nil _ _ (hw.nonempty s (List.mem_of_getElem? hs))
        have hg : Good w { w with heap := w.heap ++ [Dict.update s b],
                                  overrides := register ts w.heap.length w.overrides } := by
          refine ⟨hok, rfl, by simp, ?_, List.prefix_refl _⟩
          intro r hr h1 h2
          refine ⟨by simp [List.getElem?_append, hr], ?_, h2⟩
          rintro ⟨t, ht⟩
          rcases mem_register ht with ht | ht
          · exact h1 ⟨t, ht⟩
          · simp at ht; omega
        exact hg.trans (ih hp _ hok h)
  | visit t k ih =>
    simp only [run] at h
    split at h
    · simp at h
    · rename_i r1 w1 h1
      have hg := hv t w r1 w1 hw h1
      exact hg.trans (ih r1 (hp r1) w1 hg.ok h)
  | collect v k ih =>
    simp only [run] at h
    have hok : Ok { w with collected := w.collected ++ [v] } :=
      ⟨hw.stack_ne, hw.stack_valid, hw.overrides_valid, hw.nonempty⟩
    have hg : Good w { w with collected := w.collected ++ [v] } :=
      ⟨hok, rfl, Nat.le_refl _, fun _ _ h1 h2 => ⟨rfl, h1, h2⟩, List.prefix_append _ _⟩
    exact hg.trans (ih hp _ hok h)

theorem visitItems_good {visitF : Obj → W ν → Option (Except ε ρ × W ν)} (hv : VisitGood visitF)
    (ts : List Obj) (w : W ν) (hw : Ok w) (r w') (h : visitItems visitF ts w = some (r, w')) :
    Good w w' := by
  induction ts generalizing w r w' with
  | nil => simp only [visitItems, Option.some.injEq, Prod.mk.injEq] at h; obtain ⟨_, rfl⟩ := h; exact .refl hw
  | cons t ts ih =>
    simp only [visitItems] at h
    split at h
    · simp at h
    · rename_i e w1 h1
      simp only [Option.some.injEq, Prod.mk.injEq] at h
      obtain ⟨_, rfl⟩ := h
      exact hv _ _ _ _ hw h1
    · rename_i x w1 h1
      have hg := hv _ _ _ _ hw h1
      split at h
      · simp at h
      · rename_i e w2 h2
        simp only [Option.some.injEq, Prod.mk.injEq] at h
        obtain ⟨_, rfl⟩ := h
        exact hg.trans (ih _ hg.ok _ _ h2)
      · rename_i rs w2 h2
        simp only [Option.some.injEq, Prod.mk.injEq] at h
        obtain ⟨_, rfl⟩ := h
        exact hg.trans (ih _ hg.ok _ _ h2)

theorem visitBody_good {wk : Walker ν ρ ε} (hk : ∀ t, (wk.examine t).KeepsNonempty)
    {visitF : Obj → W ν → Option (Except ε ρ × W ν)} (hv : VisitGood visitF)
    (t : Obj) (w : W ν) (hw : Ok w) (r w') (h : visitBody wk visitF t w = some (r, w')) :
    Good w w' := by
  unfold visitBody at h
  split at h
  · split at h
    · simp at h
    · rename_i h1
      simp only [Option.some.injEq, Prod.mk.injEq] at h
      obtain ⟨_, rfl⟩ := h
      exact visitItems_good hv _ _ hw _ _ h1
    · rename_i h1
      simp only [Option.some.injEq, Prod.mk.injEq] at h
      obtain ⟨_, rfl⟩ := h
      exact visitItems_good hv _ _ hw _ _ h1
  · exact run_good hv _ (hk t) w hw r w' h

theorem truthy_of_ok {w : W ν} (hw : Ok w) {r : Nat} (hr : r < w.heap.length) : truthy w r = true := by
  unfold truthy W.deref
  rw [List.getElem?_eq_getElem hr]
  have := hw.nonempty w.heap[r] (List.getElem_mem hr)
  cases h : w.heap[r] with
  | nil => exact absurd h this
  | cons a b => rfl

/-- The `finally` clause after a pushed override. -/
theorem visit_override {wk : Walker ν ρ ε} (hk : ∀ t, (wk.examine t).KeepsNonempty) {n : Nat}
    (hv : VisitGood (visit wk n)) {t : Obj} {w : W ν} (hw : Ok w) {r : Nat}
    (hr : Dict.get w.overrides t = some r) {res w'} (h : visit wk (n + 1) t w = some (res, w')) :
    ∃ w3, visitBody wk (visit wk n) t
        { w with overrides := Dict.del w.overrides t, stack := r :: w.stack } = some (res, w3) ∧
      Good { w with overrides := Dict.del w.overrides t, stack := r :: w.stack } w3 ∧
      w' = { w3 with stack := w.stack } := by
  have hlt : r < w.heap.length := hw.overrides_valid t r (Dict.get_mem _ _ _ hr)
  simp only [visit, hr] at h
  have hok1 : Ok { w with overrides := Dict.del w.overrides t } :=
    ⟨hw.stack_ne, hw.stack_valid, fun t' r' hm => hw.overrides_valid t' r' (mem_del hm), hw.nonempty⟩
  have ht1 : truthy { w with overrides := Dict.del w.overrides t } r = true := truthy_of_ok hok1 hlt
  rw [ht1] at h
  simp only [if_true] at h
  have hok2 : Ok { w with overrides := Dict.del w.overrides t, stack := r :: w.stack } := by
    refine ⟨by simp, ?_, hok1.overrides_valid, hw.nonempty⟩
    intro x hx
    simp only [List.mem_cons] at hx
    rcases hx with rfl | hx
    · exact hlt
    · exact hw.stack_valid x hx
  split at h
  · simp at h
  · rename_i res1 w3 h3
    have hg := visitBody_good hk hv t _ hok2 _ _ h3
    have ht3 : truthy w3 r = true := truthy_of_ok hg.ok (Nat.lt_of_lt_of_le hlt hg.grow)
    rw [ht3] at h
    simp only [if_true, Option.some.injEq, Prod.mk.injEq] at h
    obtain ⟨rfl, rfl⟩ := h
    refine ⟨w3, h3, hg, ?_⟩
    rw [hg.tail]
    rfl

theorem visit_good {wk : Walker ν ρ ε} (hk : ∀ t, (wk.examine t).KeepsNonempty) (n : Nat) :
    VisitGood (visit wk n) := by
  induction n with
  | zero => intro t w r w' _ h; simp [visit] at h
  | succ n ih =>
    intro t w res w' hw h
    cases hr : Dict.get w.overrides t with
    | none =>
      simp only [visit, hr] at h
      exact visitBody_good hk ih t w hw _ _ h
    | some r =>
      have hlt : r < w.heap.length := hw.overrides_valid t r (Dict.get_mem _ _ _ hr)
      obtain ⟨w3, h3, hg, rfl⟩ := visit_override hk ih hw hr h
      refine ⟨⟨hw.stack_ne, ?_, hg.ok.overrides_valid, hg.ok.nonempty⟩, rfl, hg.grow, ?_, hg.collected⟩
      · intro x hx
        exact Nat.lt_of_lt_of_le (hw.stack_valid x hx) hg.grow
      · intro x hx hp hh
        have hxr : r ≠ x := by
          rintro rfl
          exact hp ⟨t, Dict.get_mem _ _ _ hr⟩
        have := hg.frame x hx (fun ⟨t', ht'⟩ => hp ⟨t', mem_del ht'⟩) (by simpa using hxr)
        exact ⟨this.1, this.2.1, hh⟩

end Mcpyrate.Walkers
