import Verif.Lemmas.StepExpansion
/-
The messages of `step_expansion`.
-/
namespace Mcpyrate.StepExpansion
open Py Expander Collector

variable {σ : Type} {E : Env (User σ)} {dump : Bool} {level : Nat}

/-- The state of the `step_expansion`s around the innermost one. -/
def around (w : W σ) : List Frame × List Line := (w.user.frames.tail, progress (w.user.frames.length - 1) w)

theorem progress_mono {a b : Nat} (h : a ≤ b) (w : W σ) :
    progress a w = (progress b w).filter fun x => decide (x.level ≤ a) := by
  unfold progress
  rw [List.filter_filter]
  refine List.filter_congr fun x _ => ?_
  cases x.event.isProgress with
  | false => simp
  | true =>
    simp only [Bool.true_and]
    by_cases h1 : x.level ≤ a
    · have : x.level ≤ b := Nat.le_trans h1 h
      simp [h1, this]
    · simp [h1]

theorem shown_frames {w w' : W σ} (h : shown w' = shown w) : w'.user.frames = w.user.frames := congrArg Prod.fst h

theorem shown_progress {w w' : W σ} (h : shown w' = shown w) :
    progress w.user.frames.length w' = progress w.user.frames.length w := by
  have h2 : progress w'.user.frames.length w' = _ := congrArg Prod.snd h
  rw [shown_frames h] at h2
  exact h2

theorem around_of_shown {w w' : W σ} (h : shown w' = shown w) : around w' = around w := by
  unfold around
  rw [shown_frames h, progress_mono (Nat.sub_le _ 1) w', progress_mono (Nat.sub_le _ 1) w, shown_progress h]

theorem progress_emit (x : Line) (n : Nat) (w : W σ) :
    progress n (emit x w) = progress n w ++ if x.event.isProgress && decide (x.level ≤ n) then [x] else [] := by
  unfold progress emit
  rw [List.filter_append, List.filter_cons]
  rfl

theorem shown_emit {x : Line} (h : x.event.isProgress = false) (w : W σ) : shown (emit x w) = shown w := by
  unfold shown
  rw [progress_emit, h]
  simp [emit]

theorem around_emit {x : Line} {w : W σ} (h : x.level = w.user.frames.length) (h0 : 0 < x.level) :
    around (emit x w) = around w := by
  unfold around
  rw [progress_emit, if_neg]
  · simp [emit]
  · have : (emit x w).user.frames.length = x.level := h.symm
    simp [this]
    omega

theorem setStep_length (n : Nat) (w : W σ) : (setStep n w).user.frames.length = w.user.frames.length := by
  unfold setStep
  cases w.user.frames with
  | nil => rfl
  | cons => rfl

theorem around_setStep (n : Nat) (w : W σ) : around (setStep n w) = around w := by
  unfold around
  rw [setStep_length]
  refine Prod.ext ?_ rfl
  unfold setStep
  cases w.user.frames with
  | nil => rfl
  | cons => rfl

theorem shown_pop (w : W σ) : shown (pop w) = around w := by
  unfold shown around
  have : (pop w).user.frames.length = w.user.frames.length - 1 := by simp [pop]
  rw [this]
  rfl

theorem around_push (dump : Bool) (w : W σ) : around (push dump w) = shown w := rfl

theorem shown_local : Local (shown (σ := σ)) := fun _ _ _ h => h

theorem printStep_ends (level : Nat) (t : Val) (r : Ret) (n : String) (x : List Frame × List Line) :
    (printStep (σ := σ) level t r n).Ends shown x x := by
  have hd : ∀ (l : Line) (v : Ret) (k : Except Exc Unit → Prog (User σ)), l.event.isProgress = false →
      (∀ o, (k o).Ends shown x x) → (display l v k).Ends shown x x := by
    intro l v k hl hk
    unfold display
    split
    · intro b w hw
      show (k (.ok ())).Ends shown (shown (emit l w)) x
      rw [shown_emit hl, hw]
      exact hk _
    · exact hk _
  intro b w hw
  show Prog.Ends shown x x (match w.user.frames.reverse[level - 1]? with
    | none => .raise (.py .nameError)
    | some fr => display _ (.val t) (printResult _ r))
  split
  · exact rfl
  · refine hd _ _ _ rfl fun o => ?_
    cases o with
    | error e => exact rfl
    | ok u =>
      unfold printResult
      refine hd ⟨level, _, .result r⟩ _ _ rfl fun o => ?_
      cases o with
      | error e => exact rfl
      | ok u => exact rfl

section
variable {vis : Val → X (User σ) Val}
  (hv : ∀ t, Pres (fun s s' : Expander.St (User σ) => shown s'.world = shown s.world) (vis t))
include hv

omit hv in
theorem display_post {x : Line} {v : Ret} {k : Except Exc Unit → Prog (User σ)} {s : Expander.St (User σ)}
    {Q : Except Exc Ret → Expander.St (User σ) → Prop} (hl : s.world.user.frames.length = x.level) (h0 : 0 < x.level)
    (hk : ∀ o s', s'.world.user.frames.length = x.level → around s'.world = around s.world →
      M.Post (run vis (k o)) s' Q) : M.Post (run vis (display x v k)) s Q := by
  intro r s' h
  rw [run_display] at h
  split at h
  · exact hk _ { s with world := emit x s.world } hl (around_emit hl.symm h0) _ _ h
  · exact hk _ s hl rfl _ _ h

theorem doit_post (m : Nat) (h0 : 0 < level) : ∀ (n : Nat) (t : Val) (k : Except Exc (Val × Nat) → Prog (User σ))
    (s : Expander.St (User σ)) (Q : Except Exc Ret → Expander.St (User σ) → Prop), s.world.user.frames.length = level →
    (∀ o s', s'.world.user.frames.length = level → around s'.world = around s.world → M.Post (run vis (k o)) s' Q) →
    M.Post (run vis (doit E dump level m n t k)) s Q := by
  induction m with
  | zero => intro n t k s Q _ _; exact M.post_diverge
  | succ m ih =>
    intro n t k s Q hl hk r s' h
    change run vis (afterCollect (Collector.visit E s.world m t []) t n k _) s = _ at h
    unfold afterCollect at h
    split at h
    · cases h
    · exact hk _ s hl rfl _ _ h
    · exact hk _ s hl rfl _ _ h
    · change run vis (.visit .once t _) { s with world := setStep (n + 1) s.world } = _ at h
      rw [run_visit] at h
      split at h
      · cases h
      · rename_i r1 s1 h1
        have h2 := visitMode_pres (keeps_rel shown_local).toStep hv .once t _ _ _ h1
        have h3 : around s1.world = around s.world := (around_of_shown h2).trans (around_setStep _ _)
        have h4 : s1.world.user.frames.length = level := by
          have := shown_frames h2
          rw [this, setStep_length]
          exact hl
        unfold afterVisit at h
        split at h
        · exact hk _ s1 h4 h3 _ _ h
        · refine display_post (x := ⟨level, dump, _⟩) h4 h0 (fun o s2 h5 h6 => ?_) _ _ h
          cases o with
          | error e => exact hk _ s2 h5 (h6.trans h3)
          | ok u => exact ih _ _ _ _ _ h5 fun o s3 h7 h8 => hk o s3 h7 (h8.trans (h6.trans h3))

omit hv in
theorem leave_post {s : Expander.St (User σ)} (r : Except Exc Ret) :
    M.Post (run vis (leave r)) s fun _ s' => shown s'.world = around s.world := by
  intro r' s' h
  cases r with
  | ok r =>
    change some (Except.ok r, { s with world := pop s.world }) = _ at h
    cases h
    exact shown_pop _
  | error e =>
    change some (Except.error e, { s with world := pop s.world }) = _ at h
    cases h
    exact shown_pop _

omit hv in
theorem complete_post {k : Except Exc Ret → Prog (User σ)} {s : Expander.St (User σ)} (h0 : 0 < level)
    {Q : Except Exc Ret → Expander.St (User σ) → Prop} (hl : s.world.user.frames.length = level)
    (o : Except Exc (Val × Nat))
    (hk : ∀ o s', s'.world.user.frames.length = level → around s'.world = around s.world →
      M.Post (run vis (k o)) s' Q) : M.Post (run vis (complete dump level k o)) s Q := by
  cases o with
  | error e => exact hk _ s hl rfl
  | ok p =>
    obtain ⟨t, n⟩ := p
    intro r s' h
    exact hk (.ok (.val t)) { s with world := emit _ s.world } hl (around_emit (x := ⟨level, dump, .complete n⟩) hl.symm h0)
      _ _ h

theorem stepExpansion_shown (hook : Nat → Nat) (m : Nat) (a : MArgs) (s : Expander.St (User σ)) :
    M.Post (run vis (stepExpansion E hook m a)) s fun _ s' => shown s'.world = shown s.world := by
  unfold stepExpansion
  split
  · split
    · intro r s' h; cases h; rfl
    · split
      · intro r s' h; cases h; rfl
      · rename_i d detailed _
        intro r s' h
        change run vis (display ⟨s.world.user.frames.length + 1, d, .before a.tree⟩ (.val a.tree) _)
          { s with world := push d s.world } = _ at h
        refine display_post (Q := fun _ s' => shown s'.world = shown s.world)
          (x := ⟨s.world.user.frames.length + 1, d, .before a.tree⟩) rfl (Nat.succ_pos _) (fun o s1 h1 h2 => ?_) _ _ h
        have h2 : around s1.world = shown s.world := h2
        cases o with
        | error e => exact (leave_post _).mono fun _ _ h => h.trans h2
        | ok u =>
          cases detailed with
          | false =>
            refine doit_post hv m (Nat.succ_pos _) _ _ _ _ _ h1 fun o s2 h3 h4 => ?_
            refine complete_post (Nat.succ_pos _) h3 o fun o s3 _ h6 => ?_
            exact (leave_post _).mono fun _ _ h => h.trans (h6.trans (h4.trans h2))
          | true =>
            intro r2 s2 h3
            change run vis (.withHook _ _ leave) _ = _ at h3
            rw [run_withHook] at h3
            split at h3
            · cases h3
            · rename_i r4 s4 h4
              have h5 : around s4.world = shown s.world := by
                refine doit_post hv m (Nat.succ_pos _) _ _ _ { s1 with hook := some _ }
                  (fun _ s' => around s'.world = shown s.world) h1
                  (fun o s5 h5 h6 => ?_) _ _ h4
                refine complete_post (Nat.succ_pos _) h5 o fun o s6 _ h8 => ?_
                intro r7 s7 h9
                have : s7 = s6 := by
                  cases o with
                  | ok r => cases h9; rfl
                  | error e => cases h9; rfl
                subst this
                exact h8.trans (h6.trans h2)
              exact (leave_post _ _ _ h3).trans h5
  · intro r s' h; cases h; rfl

end

/-- Visits leave the messages about whole trees of the running `step_expansion`s as they are. -/
theorem visit_shown (hE : Silent E) (n : Nat) (t : Val) :
    Pres (fun s s' : Expander.St (User σ) => shown s'.world = shown s.world) (visit E n t) := by
  refine visit_pres_of (keeps_rel shown_local).toStep (fun vis hv => ⟨?_, ?_⟩) n t
  · intro i a s _
    unfold runNested
    rw [M.post_bracket]
    rcases hE.macros i with h | ⟨E0, hook, m, h⟩
    · exact run_ends shown_local hv _ _ _ (h a _) _ rfl
    · rw [h]; exact stepExpansion_shown hv hook m a _
  · intro i t r n s _
    unfold runNested
    rw [M.post_bracket]
    rcases hE.hooks i with h | ⟨l, h⟩
    · exact run_ends shown_local hv _ _ _ (h t r n _) _ rfl
    · rw [h]; exact run_ends shown_local hv _ _ _ (printStep_ends l t r n _) _ rfl

theorem Runs.shown (hE : Silent E) {mode : Mode} {t : Val} {s s' : Expander.St (User σ)} {r : Except Exc Val}
    (h : Runs E mode t s r s') : StepExpansion.shown s'.world = StepExpansion.shown s.world := by
  obtain ⟨n, h⟩ := h
  exact visitMode_pres (keeps_rel shown_local).toStep (visit_shown hE n) mode t _ _ _ h

theorem progress_setStep (n k : Nat) (w : W σ) : progress k (setStep n w) = progress k w := rfl

/-- The messages for the steps. -/
theorem Stepping.shown (hE : Silent E) {n : Nat} {t : Val} {s s1 : Expander.St (User σ)} {ts : List Val}
    {o : Except Exc (Val × Nat)} (h : Stepping E dump level n t s ts o s1) (hl : s.world.user.frames.length = level) :
    s1.world.user.frames.length = level ∧ s1.world.user.frames.tail = s.world.user.frames.tail ∧
      progress level s1.world = progress level s.world ++ stepLines level dump (n + 1) ts ∧
      ∀ t' n', o = .ok (t', n') → n' = n + ts.length ∧ t' = ts.getLast?.getD t := by
  have hr : ∀ {n : Nat} {t : Val} {s s1 : Expander.St (User σ)} {r : Except Exc Val}, s.world.user.frames.length = level →
      Runs E .once t { s with world := setStep (n + 1) s.world } r s1 → s1.world.user.frames.length = level ∧
        s1.world.user.frames.tail = s.world.user.frames.tail ∧ progress level s1.world = progress level s.world := by
    intro n t s s1 r hl h
    have h1 := Runs.shown hE h
    have h2 := shown_frames h1
    have h3 := shown_progress h1
    rw [setStep_length, hl] at h3
    have h4 := around_of_shown h1
    rw [around_setStep] at h4
    refine ⟨?_, congrArg Prod.fst h4, h3⟩
    rw [h2, setStep_length]
    exact hl
  induction h with
  | finished => exact ⟨hl, rfl, by simp [stepLines], fun _ _ e => by cases e; exact ⟨rfl, rfl⟩⟩
  | unreadable => exact ⟨hl, rfl, by simp [stepLines], fun _ _ e => by cases e⟩
  | fails _ _ h =>
    obtain ⟨h1, h2, h3⟩ := hr hl h
    exact ⟨h1, h2, by simp [stepLines, h3], fun _ _ e => by cases e⟩
  | unprintable _ _ h =>
    obtain ⟨h1, h2, h3⟩ := hr hl h
    exact ⟨h1, h2, by simp [stepLines, h3], fun _ _ e => by cases e⟩
  | @step n t s l t' s1 ts o s2 _ _ h _ _ ih =>
    obtain ⟨h1, h2, h3⟩ := hr hl h
    obtain ⟨i1, i2, i3, i4⟩ := ih h1
    refine ⟨i1, i2.trans h2, ?_, ?_⟩
    · rw [i3, progress_emit, h3]
      simp [Event.isProgress, stepLines]
    · intro t2 n2 e
      obtain ⟨j1, j2⟩ := i4 t2 n2 e
      refine ⟨?_, ?_⟩
      · rw [j1]; simp; omega
      · rw [j2]
        cases ts with
        | nil => rfl
        | cons x xs => simp [List.getLast?_cons]

end Mcpyrate.StepExpansion
