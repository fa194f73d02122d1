import Verif.Spec.StepExpansion
import Verif.Lemmas.ExpanderRuns
import Verif.Lemmas.ExpanderKeeps
import Verif.Lemmas.CollectorMono
import Verif.Lemmas.CollectorTotal
/-
Lemmas about `step_expansion`.
-/
namespace Mcpyrate.StepExpansion
open Py Expander Collector

variable {σ : Type} {E : Env (User σ)} {dump : Bool} {level : Nat}

theorem run_visit {υ : Type} {vis : Val → X υ Val} {mode : Mode} {t : Val} {k : Except Exc Val → Prog υ} {s : Expander.St υ} :
    run vis (.visit mode t k) s =
      match visitMode vis mode t s with
      | none => none
      | some (r, s1) => run vis (k r) s1 := by
  rw [run]
  change M.bind (M.attempt (visitMode vis mode t)) _ s = _
  unfold M.bind M.attempt
  cases visitMode vis mode t s with
  | none => rfl
  | some p => rfl

theorem run_withHook {υ : Type} {vis : Val → X υ Val} {h : Nat} {p : Prog υ} {k : Except Exc Ret → Prog υ}
    {s : Expander.St υ} :
    run vis (.withHook h p k) s =
      match run vis p { s with hook := some h } with
      | none => none
      | some (r, s1) => run vis (k r) { s1 with hook := s.hook } := by
  rw [run]
  change M.bind (M.attempt (Expander.withHook h (run vis p))) _ s = _
  unfold M.bind M.attempt Expander.withHook M.bracket
  cases run vis p { s with hook := some h } with
  | none => rfl
  | some p => rfl

theorem visitAs_once {n : Nat} {t d : Val} {s s' : Expander.St (User σ)} (h : visitAs E n .once t s = some (.ok d, s')) :
    ∃ v, d = done v := by
  obtain ⟨n', b, r0, s0, -, -, -, h3, -⟩ := Runs.toVisit (⟨n, h⟩ : Runs E .once t s (.ok d) s')
  obtain ⟨v, -, hv⟩ := h3 d rfl
  exact ⟨v, hv⟩

theorem run_display {vis : Val → X (User σ) Val} {x : Line} {v : Ret} {k : Except Exc Unit → Prog (User σ)}
    {s : Expander.St (User σ)} :
    run vis (display x v k) s =
      if formats x.dump v then run vis (k (.ok ())) { s with world := emit x s.world }
      else run vis (k (.error (.py .typeError))) s := by
  unfold display
  split
  · rfl
  · rfl

/-- What `doit` does. -/
theorem doit_steps {f : Nat} (m : Nat) : ∀ (n : Nat) (t : Val) (k : Except Exc (Val × Nat) → Prog (User σ))
    (s : Expander.St (User σ)) (x : Except Exc Ret × Expander.St (User σ)),
    run (visit E f) (doit E dump level m n t k) s = some x →
    ∃ ts o s1, Stepping E dump level n t s ts o s1 ∧ run (visit E f) (k o) s1 = some x := by
  induction m with
  | zero => intro n t k s x h; cases h
  | succ m ih =>
    intro n t k s x h
    change run (visit E f) (afterCollect (Collector.visit E s.world m t []) t n k _) s = some x at h
    cases hc : Collector.visit E s.world m t [] with
    | none => rw [hc] at h; cases h
    | some p =>
      obtain ⟨r, l⟩ := p
      rw [hc] at h
      cases r with
      | error e => exact ⟨[], _, s, .unreadable ⟨m, hc⟩, h⟩
      | ok u =>
        cases l with
        | nil => exact ⟨[], _, s, .finished ⟨m, hc⟩, h⟩
        | cons key l =>
          change run (visit E f) (.visit .once t _) { s with world := setStep (n + 1) s.world } = some x at h
          rw [run_visit] at h
          cases hv : visitMode (visit E f) .once t { s with world := setStep (n + 1) s.world } with
          | none => rw [hv] at h; cases h
          | some p =>
            obtain ⟨r, s1⟩ := p
            rw [hv] at h
            dsimp only at h
            have hr : Runs E .once t { s with world := setStep (n + 1) s.world } r s1 := ⟨f, hv⟩
            cases r with
            | error e => exact ⟨[], _, s1, .fails ⟨m, hc⟩ (by simp) hr, h⟩
            | ok d =>
              obtain ⟨t', rfl⟩ := visitAs_once hv
              change run (visit E f) (display _ (.val t') _) s1 = some x at h
              rw [run_display] at h
              cases hf : formats dump (.val t') with
              | false =>
                rw [if_neg (by simp [hf])] at h
                exact ⟨[], _, s1, .unprintable ⟨m, hc⟩ (by simp) hr hf, h⟩
              | true =>
                rw [if_pos (by simp [hf])] at h
                obtain ⟨ts, o, s2, h1, h2⟩ := ih _ _ _ _ _ h
                exact ⟨t' :: ts, o, s2, .step ⟨m, hc⟩ (by simp) hr hf h1, h2⟩

theorem collects_at {w : W σ} {t : Val} {r : Except Exc Unit} {l : List Key} (h : Collects E w t r l) :
    ∃ n0, ∀ n, n0 ≤ n → Collector.visit E w n t [] = some (r, l) := by
  obtain ⟨n, hn⟩ := h
  exact ⟨n, fun m hm => Collector.visit_le hm t _ _ hn⟩

theorem runs_at {mode : Mode} {t : Val} {s s' : Expander.St (User σ)} {r : Except Exc Val} (h : Runs E mode t s r s') :
    ∃ n0, ∀ n, n0 ≤ n → visitMode (visit E n) mode t s = some (r, s') := by
  obtain ⟨n, hn⟩ := h
  exact ⟨n, fun m hm => visitAs_mono E hm mode t _ _ hn⟩

/-- Enough fuel makes `doit` finish when the stepping ends. -/
theorem doit_of_steps {n : Nat} {t : Val} {s s1 : Expander.St (User σ)} {ts : List Val} {o : Except Exc (Val × Nat)}
    (h : Stepping E dump level n t s ts o s1) :
    ∃ f0 m0, ∀ f m, f0 ≤ f → m0 ≤ m → ∀ k, run (visit E f) (doit E dump level m n t k) s = run (visit E f) (k o) s1 := by
  induction h with
  | finished hc =>
    obtain ⟨m0, hm⟩ := collects_at hc
    refine ⟨0, m0 + 1, fun f m _ h2 k => ?_⟩
    obtain ⟨m, rfl⟩ : ∃ m', m = m' + 1 := ⟨m - 1, by omega⟩
    change run (visit E f) (afterCollect (Collector.visit E _ m _ []) _ _ k _) _ = _
    rw [hm m (by omega)]
    rfl
  | unreadable hc =>
    obtain ⟨m0, hm⟩ := collects_at hc
    refine ⟨0, m0 + 1, fun f m _ h2 k => ?_⟩
    obtain ⟨m, rfl⟩ : ∃ m', m = m' + 1 := ⟨m - 1, by omega⟩
    change run (visit E f) (afterCollect (Collector.visit E _ m _ []) _ _ k _) _ = _
    rw [hm m (by omega)]
    rfl
  | @fails n t s l e s1 hc hl hr =>
    obtain ⟨m0, hm⟩ := collects_at hc
    obtain ⟨f0, hf⟩ := runs_at hr
    refine ⟨f0, m0 + 1, fun f m h1 h2 k => ?_⟩
    obtain ⟨m, rfl⟩ : ∃ m', m = m' + 1 := ⟨m - 1, by omega⟩
    change run (visit E f) (afterCollect (Collector.visit E s.world m t []) t n k _) s = _
    rw [hm m (by omega)]
    obtain ⟨key, l, rfl⟩ : ∃ key l', l = key :: l' := by cases l with
      | nil => exact absurd rfl hl
      | cons a b => exact ⟨a, b, rfl⟩
    change run (visit E f) (.visit .once t _) { s with world := setStep (n + 1) s.world } = _
    rw [run_visit, hf f h1]
    rfl
  | @unprintable n t s l t' s1 hc hl hr hp =>
    obtain ⟨m0, hm⟩ := collects_at hc
    obtain ⟨f0, hf⟩ := runs_at hr
    refine ⟨f0, m0 + 1, fun f m h1 h2 k => ?_⟩
    obtain ⟨m, rfl⟩ : ∃ m', m = m' + 1 := ⟨m - 1, by omega⟩
    change run (visit E f) (afterCollect (Collector.visit E s.world m t []) t n k _) s = _
    rw [hm m (by omega)]
    obtain ⟨key, l, rfl⟩ : ∃ key l', l = key :: l' := by cases l with
      | nil => exact absurd rfl hl
      | cons a b => exact ⟨a, b, rfl⟩
    change run (visit E f) (.visit .once t _) { s with world := setStep (n + 1) s.world } = _
    rw [run_visit, hf f h1]
    change run (visit E f) (display _ (.val t') _) s1 = _
    rw [run_display, if_neg (by simp [hp])]
    rfl
  | @step n t s l t' s1 ts o s2 hc hl hr hp hs ih =>
    obtain ⟨m0, hm⟩ := collects_at hc
    obtain ⟨f0, hf⟩ := runs_at hr
    obtain ⟨f1, m1, ih⟩ := ih
    refine ⟨f0 + f1, m0 + m1 + 1, fun f m h1 h2 k => ?_⟩
    obtain ⟨m, rfl⟩ : ∃ m', m = m' + 1 := ⟨m - 1, by omega⟩
    change run (visit E f) (afterCollect (Collector.visit E s.world m t []) t n k _) s = _
    rw [hm m (by omega)]
    obtain ⟨key, l, rfl⟩ : ∃ key l', l = key :: l' := by cases l with
      | nil => exact absurd rfl hl
      | cons a b => exact ⟨a, b, rfl⟩
    change run (visit E f) (.visit .once t _) { s with world := setStep (n + 1) s.world } = _
    rw [run_visit, hf f (by omega)]
    change run (visit E f) (display _ (.val t') _) s1 = _
    rw [run_display, if_pos (by simp [hp])]
    exact ih f m (by omega) (by omega) k

/-- Stepping restores the debug hook. -/
theorem Stepping.hook {n : Nat} {t : Val} {s s1 : Expander.St (User σ)} {ts : List Val} {o : Except Exc (Val × Nat)}
    (h : Stepping E dump level n t s ts o s1) : s1.hook = s.hook := by
  have hr : ∀ {t : Val} {s s1 : Expander.St (User σ)} {r : Except Exc Val}, Runs E .once t s r s1 → s1.hook = s.hook := by
    intro t s s1 r ⟨f, h⟩
    exact (visitAs_pres frame_rel E.all_true f .once t s r s1 h).hook
  induction h with
  | finished => rfl
  | unreadable => rfl
  | fails _ _ h => have := hr h; exact this
  | unprintable _ _ h => have := hr h; exact this
  | step _ _ h _ _ ih => have := hr h; exact ih.trans this

theorem hook_self {s : Expander.St (User σ)} : { s with hook := s.hook } = s := rfl

/-- What `step_expansion` does, if its arguments are good. -/
theorem stepExpansion_eq {hk : Nat → Nat} {m f : Nat} {a : MArgs} {args : List Val} {detailed : Bool}
    {s : Expander.St (User σ)} (hs : a.synt = .expr ∨ a.synt = .block) (ha : a.args = some args)
    (hp : parseArgs args (false, false) = .ok (dump, detailed)) (hf : formats dump (.val a.tree) = true) :
    run (visit E f) (stepExpansion E hk m a) s =
      run (visit E f) (afterBefore E dump (if detailed then some (hk (levelOf s)) else none) (levelOf s) m a.tree (.ok ()))
        { s with world := emit ⟨levelOf s, dump, .before a.tree⟩ (push dump s.world) } := by
  unfold stepExpansion
  rw [if_pos hs, ha]
  simp only [hp]
  change run (visit E f) (display ⟨levelOf s, dump, .before a.tree⟩ (.val a.tree) _) { s with world := push dump s.world } = _
  rw [run_display, if_pos hf]
  rfl

theorem stepExpansion_steps {hk : Nat → Nat} {m f : Nat} {a : MArgs} {args : List Val} {detailed : Bool}
    {s : Expander.St (User σ)} {x : Except Exc Ret × Expander.St (User σ)} (hs : a.synt = .expr ∨ a.synt = .block)
    (ha : a.args = some args) (hp : parseArgs args (false, false) = .ok (dump, detailed))
    (hf : formats dump (.val a.tree) = true) (h : run (visit E f) (stepExpansion E hk m a) s = some x) :
    ∃ ts o s1, Stepping E dump (levelOf s) 0 a.tree (opened hk dump detailed a.tree s) ts o s1 ∧ x = closed dump s o s1 := by
  rw [stepExpansion_eq hs ha hp hf] at h
  cases detailed with
  | false =>
    obtain ⟨ts, o, s1, h1, h2⟩ := doit_steps m _ _ _ _ _ h
    refine ⟨ts, o, s1, h1, ?_⟩
    have hh : s1.hook = s.hook := h1.hook
    cases o with
    | ok p =>
      obtain ⟨t, n⟩ := p
      change some (Except.ok (Ret.val t), { s1 with world := pop (emit _ s1.world) }) = some x at h2
      cases h2
      simp only [closed, ← hh]
    | error e =>
      change some (Except.error e, { s1 with world := pop s1.world }) = some x at h2
      cases h2
      simp only [closed, ← hh]
  | true =>
    change run (visit E f) (.withHook _ _ leave) _ = some x at h
    rw [run_withHook] at h
    split at h
    · cases h
    · rename_i r s2 hr
      obtain ⟨ts, o, s1, h1, h2⟩ := doit_steps m _ _ _ _ _ hr
      refine ⟨ts, o, s1, h1, ?_⟩
      cases o with
      | ok p =>
        obtain ⟨t, n⟩ := p
        change some (Except.ok (Ret.val t), { s1 with world := emit _ s1.world }) = some (r, s2) at h2
        cases h2
        change some (Except.ok (Ret.val t), _) = some x at h
        cases h
        rfl
      | error e =>
        change some (Except.error e, s1) = some (r, s2) at h2
        cases h2
        change some (Except.error e, _) = some x at h
        cases h
        rfl

theorem stepExpansion_of_steps {hk : Nat → Nat} {a : MArgs} {args : List Val} {detailed : Bool}
    {s s1 : Expander.St (User σ)} {ts : List Val} {o : Except Exc (Val × Nat)} (hs : a.synt = .expr ∨ a.synt = .block)
    (ha : a.args = some args) (hp : parseArgs args (false, false) = .ok (dump, detailed))
    (hf : formats dump (.val a.tree) = true)
    (h : Stepping E dump (levelOf s) 0 a.tree (opened hk dump detailed a.tree s) ts o s1) :
    ∃ f0 m0, ∀ f m, f0 ≤ f → m0 ≤ m → run (visit E f) (stepExpansion E hk m a) s = some (closed dump s o s1) := by
  obtain ⟨f0, m0, h0⟩ := doit_of_steps h
  have hh : s1.hook = _ := h.hook
  refine ⟨f0, m0, fun f m h1 h2 => ?_⟩
  rw [stepExpansion_eq hs ha hp hf]
  cases detailed with
  | false =>
    change run (visit E f) (doit E dump (levelOf s) m 0 a.tree _) (opened hk dump false a.tree s) = _
    rw [h0 f m h1 h2]
    replace hh : s1.hook = s.hook := hh
    cases o with
    | ok p =>
      simp only [closed, ← hh]
      rfl
    | error e =>
      simp only [closed, ← hh]
      rfl
  | true =>
    change run (visit E f) (.withHook _ _ leave) _ = _
    rw [run_withHook]
    have h3 := h0 f m h1 h2 (complete dump (levelOf s) outcome)
    unfold opened at h3
    simp only [if_true] at h3
    dsimp only
    rw [h3]
    cases o with
    | ok p => rfl
    | error e => rfl

theorem formats_tree {t : Val} (h : t.isTree = true) : formats dump (.val t) = true := by
  cases t with
  | node => simp [formats, Val.isAST]
  | list => simp [formats, Val.isList]
  | const => cases h

/-- If it returns, the arguments were good. -/
theorem stepExpansion_ok {hk : Nat → Nat} {m f : Nat} {a : MArgs} {s s' : Expander.St (User σ)} {r : Ret}
    (h : run (visit E f) (stepExpansion E hk m a) s = some (.ok r, s')) :
    ∃ args dump detailed, (a.synt = .expr ∨ a.synt = .block) ∧ a.args = some args ∧
      parseArgs args (false, false) = .ok (dump, detailed) := by
  unfold stepExpansion at h
  split at h
  · rename_i hs
    split at h
    · cases h
    · rename_i args ha
      split at h
      · cases h
      · rename_i dump detailed hp
        exact ⟨args, dump, detailed, hs, ha, hp⟩
  · cases h

theorem Stepping.end_collects {n n' : Nat} {t t' : Val} {s s1 : Expander.St (User σ)} {ts : List Val}
    {o : Except Exc (Val × Nat)} (h : Stepping E dump level n t s ts o s1) (ho : o = .ok (t', n')) :
    Collects E s1.world t' (.ok ()) [] := by
  induction h with
  | finished h => cases ho; exact h
  | unreadable => cases ho
  | fails => cases ho
  | unprintable => cases ho
  | step _ _ _ _ _ ih => exact ih ho

theorem parseArg_ok {a : Val} {p q : Bool × Bool} (h : parseArg a p = .ok q) :
    (a.isK .Constant = true ∧ ∃ x, a.get? .value = some (.str x) ∧ x ∈ ["unparse", "dump", "detailed", "summary"]) ∧
      (q.1 = true ↔ p.1 = true ∨ a.get? .value = some (.str "dump")) ∧
      (q.2 = true ↔ p.2 = true ∨ a.get? .value = some (.str "detailed")) := by
  unfold parseArg at h
  split at h
  · rename_i hk
    cases hv : a.get? .value with
    | none => simp only [attr, hv] at h; cases h
    | some v =>
      simp only [attr, hv] at h
      change (if v = .str "dump" then Except.ok (true, p.2) else if v = .str "detailed" then Except.ok (p.1, true)
        else if v = .str "unparse" ∨ v = .str "summary" then Except.ok p else Except.error (Exc.py .valueError)) = .ok q at h
      split at h
      · rename_i hd
        cases h
        subst hd
        exact ⟨⟨hk, _, rfl, by simp⟩, by simp, by simp⟩
      · split at h
        · rename_i hd
          cases h
          subst hd
          exact ⟨⟨hk, _, rfl, by simp⟩, by simp, by simp⟩
        · split at h
          · rename_i hd
            cases h
            rcases hd with rfl | rfl
            · exact ⟨⟨hk, _, rfl, by simp⟩, by simp, by simp⟩
            · exact ⟨⟨hk, _, rfl, by simp⟩, by simp, by simp⟩
          · cases h
  · cases h

theorem parseArgs_ok : ∀ (args : List Val) {p q : Bool × Bool}, parseArgs args p = .ok q →
    (∀ a ∈ args, a.isK .Constant = true ∧ ∃ x, a.get? .value = some (.str x) ∧
        x ∈ ["unparse", "dump", "detailed", "summary"]) ∧
      (q.1 = true ↔ p.1 = true ∨ ∃ a ∈ args, a.get? .value = some (.str "dump")) ∧
      (q.2 = true ↔ p.2 = true ∨ ∃ a ∈ args, a.get? .value = some (.str "detailed"))
  | [], p, q, h => by cases h; simp
  | a :: args, p, q, h => by
    unfold parseArgs at h
    cases ha : parseArg a p with
    | error e => rw [ha] at h; cases h
    | ok p1 =>
      rw [ha] at h
      obtain ⟨h1, h2, h3⟩ := parseArgs_ok args h
      obtain ⟨h4, h5, h6⟩ := parseArg_ok ha
      refine ⟨?_, ?_, ?_⟩
      · intro b hb
        rcases List.mem_cons.mp hb with rfl | hb
        · exact h4
        · exact h1 b hb
      · rw [h2, h5]; simp [or_assoc]
      · rw [h3, h6]; simp [or_assoc]

end Mcpyrate.StepExpansion
