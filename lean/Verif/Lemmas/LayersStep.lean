import Verif.Lemmas.LayersAll
import Verif.Lemmas.StepExpansionShown
import Verif.Props.Collector
/-
Stepping through the expansion, and expanding at once.
-/
namespace Mcpyrate.Expander.Layers
open Py StepExpansion Collector

section
variable {υ : Type} {E : Env υ} {w w' : World υ}

/-! ### only the bindings matter -/

theorem accepts_world (h : bindings w' = bindings w) {k : String} {as : List Val} {i : Nat} :
    Accepts E w' k as i ↔ Accepts E w k as i := by
  unfold Accepts
  simp only [bindings_isbound h]

theorem invokes_world (h : bindings w' = bindings w) {t c : Val} {k : String} {i : Nat} {a : MArgs} :
    Invokes E w' t k i a c ↔ Invokes E w t k i a c := by
  constructor
  · intro hi
    cases hi with
    | expr h1 h2 h3 h4 h5 => exact .expr h1 h2 h3 ((accepts_world h).mp h4) h5
    | block h1 h2 h3 h4 h5 h6 h7 =>
      exact .block h1 h2 (fun i hi c hc hn => h3 i hi c hc ((names_world h).mpr hn)) h4 h5 ((accepts_world h).mp h6) h7
    | decorator h1 h2 h3 h4 h5 =>
      exact .decorator h1 h2 (fun i hi hn => h3 i hi ((names_world h).mpr hn)) h4 ((accepts_world h).mp h5)
    | name h1 h2 h3 h4 h5 => exact .name h1 h2 h3 (by rw [← bindings_isbound h]; exact h4) h5
  · intro hi
    cases hi with
    | expr h1 h2 h3 h4 h5 => exact .expr h1 h2 h3 ((accepts_world h).mpr h4) h5
    | block h1 h2 h3 h4 h5 h6 h7 =>
      exact .block h1 h2 (fun i hi c hc hn => h3 i hi c hc ((names_world h).mp hn)) h4 h5 ((accepts_world h).mpr h6) h7
    | decorator h1 h2 h3 h4 h5 =>
      exact .decorator h1 h2 (fun i hi hn => h3 i hi ((names_world h).mp hn)) h4 ((accepts_world h).mpr h5)
    | name h1 h2 h3 h4 h5 => exact .name h1 h2 h3 (by rw [bindings_isbound h]; exact h4) h5

theorem invOf_world (h : bindings w' = bindings w) (t : Val) : invOf E w' t = invOf E w t := by
  have : Invokes E w' = Invokes E w := by
    funext t k i a c; exact propext (invokes_world h)
  unfold invOf
  rw [this]

theorem noBindings_world (h : bindings w' = bindings w) : noBindings w' = noBindings w := by
  simp only [bindings, Prod.mk.injEq] at h
  simp only [noBindings, h.1, h.2]

theorem it_world (h : bindings w' = bindings w) {A : Val → Val → Prop} : ∀ {n t r}, It E w A n t r → It E w' A n t r := by
  intro n
  induction n with
  | zero => intro t r h; exact h.elim
  | succ n ih =>
    intro t r hs
    have hi : ∀ {t}, ¬ Invocation E w t → ¬ Invocation E w' t := fun hn hi => hn ((invocation_world h).mp hi)
    cases hs with
    | same hc => exact .same (by rw [noBindings_world h]; exact hc)
    | list hb hl => exact .list (by rw [noBindings_world h]; exact hb) (all2_mono (fun _ _ h => ih h) hl)
    | name hb hk hn => exact .name (by rw [noBindings_world h]; exact hb) hk (hi hn)
    | generic hb hd hk hn hg => exact .generic (by rw [noBindings_world h]; exact hb) hd hk (hi hn) (genF_mono (fun _ _ h => ih h) hg)
    | call hb hd hp hbc he hf =>
      exact .call (by rw [noBindings_world h]; exact hb) hd (by rw [invOf_world h]; exact hp) hbc he hf

theorem settled_world (h : bindings w' = bindings w) {t : Val} (hs : Settled E w t) : Settled E w' t :=
  fun u c hu hc k i a d hi v hv hn => hs u c hu hc k i a d ((invokes_world h).mp hi) v hv ((names_world h).mp hn)

theorem noInv_world (h : bindings w' = bindings w) {t : Val} (hs : NoInvocations E w t) : NoInvocations E w' t :=
  fun u hu hi => hs u hu ((invocation_world h).mp hi)
end

section
variable {σ : Type} {E : Env (User σ)} {dump : Bool} {level : Nat}

theorem stepping_frame {n : Nat} {t : Val} {s s1 : Expander.St (User σ)} {ts : List Val} {o : Except Exc (Val × Nat)}
    (h : Stepping E dump level n t s ts o s1) : Expander.Frame s s1 := by
  have hr : ∀ {s s1 : Expander.St (User σ)} {w : W σ} {t : Val} {r : Except Exc Val}, Runs E .once t { s with world := w } r s1 →
      Expander.Frame s s1 := by
    intro s s1 w t r h
    have := runs_frame h
    exact ⟨this.recursive, this.hook, this.depth, this.log⟩
  induction h with
  | finished => exact frame_refl _
  | unreadable => exact frame_refl _
  | fails _ _ h => exact hr h
  | unprintable _ _ h => exact hr h
  | step _ _ h _ _ ih =>
    have f1 := hr h
    refine f1.trans ⟨ih.recursive, ih.hook, ih.depth, ih.log⟩

theorem stepping_up {n m : Nat} {t r : Val} {s s' : Expander.St (User σ)} {ts : List Val} {o : Except Exc (Val × Nat)}
    (h : Stepping E dump level n t s ts o s') (ho : o = .ok (r, m)) : ∀ {s0 : Expander.St (User σ)},
    bindings s.world = bindings s0.world → s.hook = none → s0.hook = none → T t → Tidy t →
    (∀ u, Later E s0 t u → Settled E s0.world u) → TidyMacros E (fresh s s') → Shaped r → r ≠ .list [] →
    ∃ D, RD E s0.world D t r := by
  induction h with
  | @finished n t s hc =>
    intro s0 hb hh hh0 hT ht hset hm hsh hne
    cases ho
    refine rd_inert hT ht hne ?_
    rcases hT with rfl | hT
    · intro v hv hi
      cases hv with
      | refl => have := hi.isAST; cases this
      | step _ h => cases h
    · exact noInv_world hb.symm ((C24_nothing E _ _ [] hT hsh hc).mp rfl)
  | unreadable => cases ho
  | fails => cases ho
  | unprintable => cases ho
  | @step n t s l t1 s1 ts o s2 hc hl hr hf hst ih =>
    intro s0 hb hh hh0 hT ht hset hm hsh hne
    have hr1 := runs_frame hr
    have f1 : Expander.Frame s s1 := ⟨hr1.recursive, hr1.hook, hr1.depth, hr1.log⟩
    have f2 : Expander.Frame s1 s2 := by
      have := stepping_frame hst
      exact ⟨this.recursive, this.hook, this.depth, this.log⟩
    have hm := (tidyMacros_trans f1 f2).mp hm
    obtain ⟨hw, k, h1⟩ := once_up (s := { s with world := setStep (n + 1) s.world }) hT ht hh hr hm.1
    have hb1 : bindings s0.world = bindings (setStep (n + 1) s.world) := hb.symm
    have h1 := it_world hb1 h1
    obtain ⟨s01, h2, h3, -⟩ := once_runs (s := s0) hT ht hh0 h1
    have hs := hset _ .refl
    obtain ⟨hT1, ht1⟩ := once_next hT ht hs h1
    obtain ⟨D, hD⟩ := ih ho (s0 := s01) (by
        show bindings s1.world = _
        rw [hw, h3]; exact hb)
      (hr1.hook.trans hh) ((runs_frame h2).hook.trans hh0) hT1 ht1
      (fun u hu => by rw [h3]; exact hset u (.step h2 hu)) hm.2 hsh hne
    rw [h3] at hD
    exact ⟨D + 1, (layer D k t t1 hT ht hs h1 r).mp hD⟩

theorem collects_none (w : W σ) : Collects E w .none (.ok ()) [] := by
  refine ⟨1, ?_⟩
  show Collector.visitBody E w _ .none [] = _
  unfold Collector.visitBody
  split <;> rfl

theorem collects_world {w w' : W σ} (h : bindings w' = bindings w) {t : Val} {r : Except Exc Unit} {l : List Key}
    (hc : Collects E w t r l) : Collects E w' t r l := by
  obtain ⟨l1, g1, u1⟩ := w
  obtain ⟨l2, g2, u2⟩ := w'
  have h : (l2, g2) = (l1, g1) := h
  cases h
  have : ∀ n, Collector.visit E ⟨l1, g1, u2⟩ n = Collector.visit E ⟨l1, g1, u1⟩ n := by
    intro n
    induction n with
    | zero => rfl
    | succ n ih =>
      show Collector.visitBody E ⟨l1, g1, u2⟩ (Collector.visit E ⟨l1, g1, u2⟩ n) = _
      rw [ih]
      have hm : ∀ c y, ismacrocall E (⟨l1, g1, u2⟩ : W σ) c y = ismacrocall E ⟨l1, g1, u1⟩ c y := fun _ _ => rfl
      have hd : ∀ y xs, detect E (⟨l1, g1, u2⟩ : W σ) y xs = detect E ⟨l1, g1, u1⟩ y xs := by
        intro y xs
        induction xs with
        | nil => rfl
        | cons x xs ih => unfold detect; rw [ih]; rfl
      funext t
      show Collector.visitBody E _ _ t = Collector.visitBody E _ (Collector.visit E _ n) t
      unfold Collector.visitBody Collector.visitNode Collector.visitWith Collector.visitDecorated
      simp only [hd]
      rfl
  obtain ⟨n, hn⟩ := hc
  exact ⟨n, by rw [this]; exact hn⟩

theorem inert_of {w : W σ} {u : Val} (hT : T u) (hs : Shaped u) (hc : Collects E w u (.ok ()) []) : NoInvocations E w u := by
  rcases hT with rfl | hT
  · intro v hv hi
    cases hv with
    | refl => have := hi.isAST; cases this
    | step _ h => cases h
  · exact (C24_nothing E _ _ [] hT hs hc).mp rfl

theorem collects_inert {w : W σ} {u : Val} {l : List Key} (hT : T u) (hs : Shaped u) (hc : Collects E w u (.ok ()) l)
    (hn : NoInvocations E w u) : l = [] := by
  rcases hT with rfl | hT
  · exact (hc.unique (collects_none w)).2
  · exact (C24_nothing E _ _ l hT hs hc).mpr hn

theorem rd_det {w : W σ} {D D' : Nat} {t r r' : Val} (hT : T t) (ht : Tidy t) (h : RD E w D t r) (h' : RD E w D' t r') : r = r' := by
  let s : Expander.St (User σ) := { recursive := true, hook := none, world := w, depth := 0, log := [] }
  obtain ⟨_, h1, _⟩ := rec_runs (s := s) hT ht rfl h
  obtain ⟨_, h2, _⟩ := rec_runs (s := s) hT ht rfl h'
  have := (h1.det h2).1
  cases this; rfl

theorem stepping_dn : ∀ D {n : Nat} {t r : Val} {s s0 : Expander.St (User σ)}, RD E s0.world D t r →
    bindings s.world = bindings s0.world → s.hook = none → s0.hook = none → T t → Tidy t →
    (∀ u, Later E s0 t u → Steppable E s0.world dump u) →
    ∃ ts m s', Stepping E dump level n t s ts (.ok (r, m)) s' ∧ TidyMacros E (fresh s s') := by
  intro D
  induction D with
  | zero =>
    intro n t r s s0 h hb hh hh0 hT ht hset
    have hs := hset _ .refl
    obtain ⟨l, hc⟩ := hs.collects
    cases l with
    | nil =>
      obtain ⟨D', h'⟩ := rd_inert hT ht hs.nonempty (inert_of hT hs.shaped hc)
      cases rd_det hT ht h h'
      exact ⟨[], n, s, .finished (collects_world hb hc), tidyMacros_self s⟩
    | cons k l =>
      obtain ⟨m, h⟩ := h
      have h1 : It E s0.world Same m t r := it_mono (fun _ _ h => h.elim) h
      obtain ⟨s01, h2, h3, -⟩ := once_runs (s := s0) hT ht hh0 h1
      obtain ⟨s1, h4, h5, h6⟩ := once_runs (s := { s with world := setStep (n + 1) s.world }) hT ht hh (it_world (w' := setStep (n + 1) s.world) hb h1)
      obtain ⟨hT1, ht1⟩ := once_next hT ht hs.settled h1
      have hs1 := hset r (.step h2 .refl)
      obtain ⟨l', hc'⟩ := hs1.collects
      cases collects_inert hT1 hs1.shaped hc' (it_last m t r hT ht hs.settled h)
      refine ⟨[r], n + 1, _, .step (collects_world hb hc) (by simp) h4 hs1.prints (.finished (collects_world ?_ hc')), h6⟩
      show bindings s1.world = _
      rw [h5]; exact hb
  | succ D ih =>
    intro n t r s s0 h hb hh hh0 hT ht hset
    have hs := hset _ .refl
    obtain ⟨l, hc⟩ := hs.collects
    cases l with
    | nil =>
      obtain ⟨D', h'⟩ := rd_inert hT ht hs.nonempty (inert_of hT hs.shaped hc)
      cases rd_det hT ht h h'
      exact ⟨[], n, s, .finished (collects_world hb hc), tidyMacros_self s⟩
    | cons k l =>
      obtain ⟨m, t1, h1⟩ := rd_once h
      obtain ⟨s01, h2, h3, -⟩ := once_runs (s := s0) hT ht hh0 h1
      obtain ⟨s1, h4, h5, h6⟩ := once_runs (s := { s with world := setStep (n + 1) s.world }) hT ht hh (it_world (w' := setStep (n + 1) s.world) hb h1)
      obtain ⟨hT1, ht1⟩ := once_next hT ht hs.settled h1
      have hs1 := hset t1 (.step h2 .refl)
      have h7 := (layer D m t t1 hT ht hs.settled h1 r).mpr h
      rw [← h3] at h7
      obtain ⟨ts, m', s', h8, h9⟩ := ih (n := n + 1) (s := { s1 with world := emit ⟨level, dump, .after (n + 1) t1⟩ s1.world }) h7
        (by show bindings s1.world = _; rw [h5, h3]; exact hb) ((runs_frame h4).hook.trans hh)
        ((runs_frame h2).hook.trans hh0) hT1 ht1 fun u hu => by rw [h3]; exact hset u (.step h2 hu)
      refine ⟨t1 :: ts, m', s', .step (collects_world hb hc) (by simp) h4 hs1.prints h8, ?_⟩
      have hr1 := runs_frame h4
      have f1 : Expander.Frame s s1 := ⟨hr1.recursive, hr1.hook, hr1.depth, hr1.log⟩
      have f2 : Expander.Frame s1 s' := by
        have := stepping_frame h8
        exact ⟨this.recursive, this.hook, this.depth, this.log⟩
      exact (tidyMacros_trans f1 f2).mpr ⟨h6, h9⟩

end

end Mcpyrate.Expander.Layers
