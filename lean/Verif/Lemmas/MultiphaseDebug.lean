import Verif.Spec.MultiphaseDebug
import Verif.Lemmas.Multiphase
import Verif.Lemmas.Compiler
import Verif.Lemmas.ExpanderErrors
import Verif.Lemmas.ExpanderEffect
import Verif.Lemmas.ExpanderFixpoint
/-
Lemmas about the debug mode of the multi-phase compiler.
-/
namespace Mcpyrate.Multiphase
open Py Modules

theorem importsStep_eq {as : List Val} (h : ∀ a ∈ as, (a.get? .name).isSome = true) :
    (importsStep as = .ok true ∧ ∃ b ∈ as, b.get? .name = some (.str "step_phases")) ∨
    (importsStep as = .ok false ∧ ¬ ∃ b ∈ as, b.get? .name = some (.str "step_phases")) := by
  induction as with
  | nil => exact .inr ⟨rfl, by simp⟩
  | cons a as ih =>
    have ha := h a (by simp)
    rw [importsStep]
    cases hn : a.get? .name with
    | none => rw [hn] at ha; cases ha
    | some n =>
      dsimp only
      by_cases hp : n = .str "step_phases"
      · subst hp
        exact .inl ⟨by simp, a, by simp, hn⟩
      · rw [if_neg (by simpa using hp)]
        rcases ih (fun x hx => h x (by simp [hx])) with ⟨h1, b, hb, h2⟩ | ⟨h1, h2⟩
        · exact .inl ⟨h1, b, by simp [hb], h2⟩
        · refine .inr ⟨h1, ?_⟩
          rintro ⟨b, hb, h3⟩
          rcases List.mem_cons.1 hb with rfl | hb
          · rw [hn] at h3; cases h3; exact hp rfl
          · exact h2 ⟨b, hb, h3⟩

theorem isdebug_eq {body : List Val} (hp : ImportsParsed body) :
    (isdebug body = .ok true ∧ ∃ s ∈ body, IsStepImport s) ∨
    (isdebug body = .ok false ∧ ¬ ∃ s ∈ body, IsStepImport s) := by
  obtain ⟨hp, hn⟩ := hp
  induction body with
  | nil => exact .inr ⟨rfl, by simp⟩
  | cons s rest ih =>
    have ih := ih (fun x hx => hp x (by simp [hx])) (fun x hx => hn x (by simp [hx]))
    have key : ¬ IsStepImport s →
        ((isdebug rest = .ok true ∧ ∃ x ∈ s :: rest, IsStepImport x) ∨
        (isdebug rest = .ok false ∧ ¬ ∃ x ∈ s :: rest, IsStepImport x)) := by
      intro hs
      rcases ih with ⟨h1, x, hx, h2⟩ | ⟨h1, h2⟩
      · exact .inl ⟨h1, x, by simp [hx], h2⟩
      · refine .inr ⟨h1, ?_⟩
        rintro ⟨x, hx, h3⟩
        rcases List.mem_cons.1 hx with rfl | hx
        · exact hs h3
        · exact h2 ⟨x, hx, h3⟩
    rw [isdebug, Splicing.ismacroimport_eq (hp s (by simp)).1]
    cases hm : Splicing.isImport "macros" s with
    | false => exact key (fun h => by rw [h.1] at hm; cases hm)
    | true =>
      dsimp only
      split
      · rename_i hc
        obtain ⟨a, as, n, h1, h2⟩ := (hp s (by simp)).1 (Splicing.isImport_isK hm)
        rw [h1]
        dsimp only
        simp only [Bool.and_eq_true, beq_iff_eq] at hc
        rcases importsStep_eq (as := as) (fun x hx => hn s (by simp) _ h1 (Splicing.isImport_isK hm) x (by simp [hx])) with
          ⟨h3, b, hb, h4⟩ | ⟨h3, h4⟩
        · rw [h3]
          refine .inl ⟨rfl, s, by simp, hm, ?_, ?_, a, as, b, h1, hb, h4⟩
          · cases hx : s.get? .module_ with
            | none => rw [hx] at hc; exact absurd hc.1 (by simp [Val.str, Val.none])
            | some v => rw [hx] at hc; simpa using hc.1
          · cases hx : s.get? .level with
            | none => rw [hx] at hc; exact absurd hc.2 (by simp [Val.int, Val.none])
            | some v => rw [hx] at hc; simpa using hc.2
        · rw [h3]
          refine key ?_
          rintro ⟨-, -, -, a', as', b, h5, hb, h6⟩
          rw [h1] at h5
          cases h5
          exact h4 ⟨b, hb, h6⟩
      · rename_i hc
        refine key ?_
        rintro ⟨-, h1, h2, -⟩
        rw [h1, h2] at hc
        simp at hc

theorem file_eq (F : Format) (fn : Arg) : F.file fn = shownFile F fn := by cases fn <;> rfl

theorem startLine_eq (F : Format) (self : Str) (fn : Arg) : startLine F self fn = opening F self fn := by
  unfold startLine opening
  rw [file_eq]
  simp [String.toList_append]

theorem phaseLine_eq (F : Format) (self : Str) (fn : Arg) (k : Nat) : phaseLine F self fn k = heading F self fn k := by
  unfold phaseLine heading
  rw [file_eq]
  simp only [String.toList_append, String.toList_ofList, List.append_assoc]

variable {τ : Type} {C : Compiler τ} {F : Format} {debug : Bool} {head : Nat → Str} {module : Nat}

theorem say_state (x : Str) (s : Out τ) : (say debug x s).1 = s.1 := by
  unfold say
  split <;> rfl

/-- The output makes no difference. -/
theorem loopOut_same (k : Nat) (body : List Val) (s : Out τ) :
    ((loopOut C F debug head module k body s).1, (loopOut C F debug head module k body s).2.1) =
      loop C module k body s.1 := by
  induction k generalizing body s with
  | zero =>
    rw [loopOut, loop]
    dsimp only
    by_cases hb : body = []
    · rw [if_pos hb, if_pos hb, say_state]
    · rw [if_neg hb, if_neg hb]
      cases FutureImports.inject (assignment 0) (.list body) with
      | error e => dsimp only; rw [say_state]
      | ok b =>
        dsimp only
        rw [say_state, say_state]
        cases C.expand b s.1 with
        | mk r s1 => cases r <;> rfl
  | succ k ih =>
    rw [loopOut, loop]
    dsimp only
    cases extractPhase (k + 1) body with
    | error e => dsimp only; rw [say_state]
    | ok p =>
      obtain ⟨this, rest⟩ := p
      dsimp only
      by_cases hb : this = []
      · rw [if_pos hb, if_pos hb, ih, say_state]
      · rw [if_neg hb, if_neg hb]
        cases FutureImports.inject (assignment (k + 1)) (.list this) with
        | error e => dsimp only; rw [say_state]
        | ok b =>
          dsimp only
          rw [say_state, say_state]
          cases C.run b module s.1 with
          | mk r s1 =>
            cases r with
            | error e => rfl
            | ok u => exact ih rest _

/-- Without debug mode there is no output. -/
theorem loopOut_quiet (k : Nat) (body : List Val) (s : Out τ) :
    (loopOut C F false head module k body s).2.2 = s.2 := by
  induction k generalizing body s with
  | zero =>
    rw [loopOut]
    simp only [say, Bool.false_eq_true, if_false]
    split
    · rfl
    · split
      · rfl
      · rename_i b _
        cases C.expand b s.1 with
        | mk r s1 => cases r <;> rfl
  | succ k ih =>
    rw [loopOut]
    simp only [say, Bool.false_eq_true, if_false]
    cases extractPhase (k + 1) body with
    | error e => rfl
    | ok p =>
      obtain ⟨this, rest⟩ := p
      dsimp only
      split
      · exact ih _ _
      · split
        · rfl
        · rename_i b _
          cases C.run b module s.1 with
          | mk r s1 =>
            cases r with
            | error e => rfl
            | ok u => exact ih rest _

/-- In debug mode, the report. -/
theorem loopOut_reported {orig : List Val} (k : Nat) {cur : List Val}
    (h0 : k = 0 → AtPhase 0 orig cur)
    (hk : 1 ≤ k → Parsed cur ∧ UpTo k cur ∧ ∀ j, j ≤ k → ∀ code, AtPhase j cur code → AtPhase j orig code)
    {s s' : Out τ} {r : Except Err (Option (List Val))} (h : loopOut C F true head module k cur s = (r, s')) :
    ∃ ls, s'.2 = s.2 ++ ls ∧ Reported C F head module orig k s.1 ls r s'.1 := by
  induction k generalizing cur s with
  | zero =>
    have ha := h0 rfl
    rw [loopOut] at h
    simp only [say, if_true] at h
    split at h
    · rename_i he
      cases h
      subst he
      exact ⟨_, rfl, .empty ha⟩
    · rename_i hne
      split at h
      · rename_i e hi
        cases h
        exact ⟨_, rfl, .malformed ha hi⟩
      · rename_i b hi
        split at h
        · rename_i e s1 he
          cases h
          exact ⟨[head 0, F.unparse b], by simp, .last (r := .error e) ha hne hi he⟩
        · rename_i r1 s1 he
          cases h
          exact ⟨[head 0, F.unparse b], by simp, .last (r := .ok r1) ha hne hi he⟩
  | succ k ih =>
    obtain ⟨hp, hu, hat⟩ := hk (by omega)
    obtain ⟨this, rest, h1, h2, h3, h4⟩ := extract_spec (by omega) hp hu
    have ha := hat (k + 1) (Nat.le_refl _) this h2
    have hz : k = 0 → AtPhase 0 orig rest := fun e => hat 0 (by omega) _ (h3 (by omega))
    have hs : 1 ≤ k → Parsed rest ∧ UpTo k rest ∧ ∀ j, j ≤ k → ∀ code, AtPhase j rest code → AtPhase j orig code :=
      fun e => by
        obtain ⟨g1, g2, g3⟩ := h4 (by omega)
        exact ⟨g1, g2, fun j hj code hc => hat j (by omega) code (g3 j (by omega) code hc)⟩
    rw [loopOut, h1] at h
    simp only [say, if_true] at h
    split at h
    · rename_i he
      subst he
      obtain ⟨ls, h5, h6⟩ := ih hz hs h
      exact ⟨head (k + 1) :: ls, by simp [h5], .skip ha h6⟩
    · rename_i hne
      split at h
      · rename_i e hi
        cases h
        exact ⟨_, rfl, .malformed ha hi⟩
      · rename_i b hi
        split at h
        · rename_i e s1 he
          cases h
          exact ⟨[head (k + 1), F.unparse b], by simp, .fails ha hne hi he⟩
        · rename_i s1 he
          obtain ⟨ls, h5, h6⟩ := ih hz hs h
          exact ⟨head (k + 1) :: F.unparse b :: ls, by simp [h5], .run ha hne hi he h6⟩

/-- If all phases were compiled, all of them were reported. -/
theorem Reported.all {body : List Val} {k : Nat} {s s' : Sys × τ} {ls : List Str} {r : Except Err (Option (List Val))}
    (h : Reported C F head module body k s ls r s') (hr : ∃ x, r = .ok x) : AllPhases F head body k ls := by
  induction h with
  | last h1 h2 h3 _ => exact .zero (.inr ⟨_, _, h1, h2, h3, rfl⟩)
  | empty h1 => exact .zero (.inl ⟨h1, rfl⟩)
  | run h1 h2 h3 _ _ ih => exact .succ (.inr ⟨_, _, h1, h2, h3, rfl⟩) (ih hr)
  | fails => obtain ⟨x, hx⟩ := hr; cases hx
  | skip h1 _ ih => exact .succ (.inl ⟨h1, rfl⟩) (ih hr)
  | malformed => obtain ⟨x, hx⟩ := hr; cases hx

section
open Expander
variable {υ : Type} {E : Env υ}

/-- If nothing was raised, no macro that always raises an exception was applied. -/
def Unrefused (E : Env υ) (o : Option Exc) (s s' : St υ) : Prop :=
  o = none → Expander.Frame s s' ∧ ∀ e ∈ fresh s s', e.depth = s.depth → ¬ Refuses E e.fn

theorem unrefused_rel : RelQ (Unrefused E) where
  refl s _ := ⟨Expander.frame_refl s, by simp [fresh_self]⟩
  py _ _ h := by cases h
  trans := by
    intro o a b c h1 h2 ho
    obtain ⟨f1, g1⟩ := h1 rfl
    obtain ⟨f2, g2⟩ := h2 ho
    refine ⟨f1.trans f2, fun e he hd => ?_⟩
    rw [fresh_trans f1 f2, List.mem_append] at he
    rcases he with he | he
    · exact g1 e he hd
    · exact g2 e he (hd.trans f1.depth.symm)
  mode := by
    intro o s s' b h ho
    obtain ⟨f, g⟩ := h ho
    exact ⟨⟨rfl, f.hook, f.depth, f.log⟩, g⟩

theorem visit_unrefused (n : Nat) (t : Val) (s : St υ) : PQ (Unrefused E) (visit E n t) s := by
  refine visit_pq unrefused_rel (fun n ih name a s _ => ?_) n t s
  unfold expand PQ
  rw [M.post_bind, M.post_attempt]
  intro r s' hr
  cases r with
  | error e =>
    dsimp only
    rw [M.post_throw]
    intro h
    cases h
  | ok v =>
    have h1 : Unrefused E none s s' := by
      intro _
      unfold expandTry at hr
      rw [run_get] at hr
      cases hb : isbound s.world name with
      | none => rw [hb] at hr; cases hr
      | some id =>
        rw [hb] at hr
        obtain ⟨ret, s1, h2, h3⟩ := Expander.bind_ok hr
        have hs : s' = s1 := by
          cases hc : checkRet ret with
          | none => rw [hc] at h3; cases h3
          | some v' => rw [hc] at h3; cases h3; rfl
        subst hs
        obtain ⟨f, l, hl, hd⟩ := applyMacro_eff (E := E) (n := n) id name a s hb _ _ h2
        refine ⟨f, fun e he hde => ?_⟩
        rw [hl] at he
        rcases List.mem_cons.1 he with rfl | he
        · intro hr
          obtain ⟨_, s0, h4⟩ := applyMacro_out h2
          obtain ⟨x, hx⟩ := hr a
          rw [hx] at h4
          unfold run at h4
          cases h4
        · exact absurd hde (Nat.ne_of_gt (hd e he))
    exact (visitExpansion_pq unrefused_rel ih _ _ _).mono fun _ _ h2 => unrefused_rel.trans h1 h2

end

end Mcpyrate.Multiphase
