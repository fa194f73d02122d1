import Verif.Spec.Output
import Verif.Lemmas.ExpanderOrder
import Verif.Lemmas.FixCtx
import Verif.Lemmas.FixLocations
/-
The output of a macro is used verbatim, apart from locations and `ctx`.
-/
namespace Mcpyrate.Expander
open Py

variable {υ : Type} {E : Env υ}

theorem checkRet_iff (r : Ret) (v : Val) : checkRet r = some v ↔ Accepted r v := by
  constructor
  · intro h
    unfold checkRet at h
    split at h
    · cases h; exact .none
    · cases h; exact .ast
    · split at h
      · rename_i hx; cases h; exact .list (by simpa using hx)
      · cases h
    · cases h; exact .emptyStr
    · cases h; exact .emptyBytes
    · cases h
    · cases h
  · intro h
    cases h with
    | none => rfl
    | ast => rfl
    | list hx => simp [checkRet, List.all_eq_true.mpr hx]
    | emptyStr => rfl
    | emptyBytes => rfl

theorem fitted_of {v e1 e2 : Val} {ref : Loc} (hv : v.isTree = true)
    (h1 : FixLocations.fixLocations v ref .reference = .ok e1) (h2 : FixCtx.fixCtx e1 = .ok e2) : Fitted ref v e2 := by
  have ht1 : e1.isTree = true := (like_fixLocations hv h1).isTree hv
  have hctx := walk_tmap FixCtx.total .Load e1 e2 h2 ht1
  refine ⟨e1, ?_, ?_, ?_, ?_, ?_⟩
  · by_cases hr : FixLocations.Located ref
    · rw [FixLocations.fixLocations_eq v ref _ hv hr] at h1
      rw [← Except.ok.inj h1, FixLocations.erase_tmap]
    · have hn : ¬ (FixLocations.Attr.has ref.lineno = true ∧ FixLocations.Attr.has ref.colOffset = true) := fun hh =>
        hr ⟨(FixLocations.has_iff _).1 hh.1, (FixLocations.has_iff _).1 hh.2⟩
      rw [FixLocations.fixLocations, if_pos hn] at h1
      rw [Except.ok.inj h1]
  · intro hr
    rw [FixLocations.fixLocations_eq v ref _ hv hr] at h1
    rw [← Except.ok.inj h1, FixLocations.locs_eq, FixLocations.locs_eq,
      FixLocations.locs_tmap _ _ _ (FixLocations.uniform_reference .reference (by decide) (by decide) _)]
  · intro hr
    have hn : ¬ (FixLocations.Attr.has ref.lineno = true ∧ FixLocations.Attr.has ref.colOffset = true) := fun hh =>
      hr ⟨(FixLocations.has_iff _).1 hh.1, (FixLocations.has_iff _).1 hh.2⟩
    rw [FixLocations.fixLocations, if_pos hn] at h1
    exact (Except.ok.inj h1).symm
  · rw [hctx, FixCtx.erase_tmap]
  · intro hok d c l fs ha hc
    rw [hctx] at ha
    exact (FixCtx.CtxOk_at ha (FixCtx.ctx_tmap .Load (.inl rfl) e1 hok)).1 hc

/-- If `applyMacro` returned, then the macro function returned that. -/
theorem applyMacro_ret {vis : Val → X υ Val} {id : Nat} {k : String} {a : MArgs} {s s1 : St υ} {ret : Ret}
    (h : applyMacro E vis id k a s = some (.ok ret, s1)) :
    ∃ s0, run vis ((E.macros id).fn a) (enterMacro k id a s) = some (.ok ret, s0) := by
  unfold applyMacro at h
  rw [run_get] at h
  obtain ⟨_, s2, h2, k2⟩ := bind_ok h
  cases h2
  obtain ⟨ret', s3, h3, k3⟩ := bind_ok k2
  obtain ⟨s0, hr, hs1⟩ := bracket_some h3
  rw [run_get] at k3
  have : ret = ret' := by
    cases h1 : s3.hook with
    | none =>
      rw [h1] at k3
      have k' : (some (.ok ret', s3) : Option (Except Exc Ret × St υ)) = some (.ok ret, s1) := k3
      cases k'; rfl
    | some x =>
      cases h2 : s.hook with
      | none => rw [h1, h2] at k3; cases k3
      | some y =>
        rw [h1, h2] at k3
        obtain ⟨_, s4, -, k5⟩ := bind_ok (m := runNested vis (E.hooks x a.invocation ret' k)) k3
        have k' : (some (.ok ret', s4) : Option (Except Exc Ret × St υ)) = some (.ok ret, s1) := k5
        cases k'; rfl
  subst this
  exact ⟨s0, hr⟩

theorem expand_ret {vis : Val → X υ Val} {id : Nat} {k : String} {a : MArgs} {s s' : St υ} {r : Val}
    (hb : isbound s.world k = some id) (h : expand E vis k a s = some (.ok r, s')) :
    ∃ ret v s0 s1, run vis ((E.macros id).fn a) (enterMacro k id a s) = some (.ok ret, s0) ∧
      Accepted ret v ∧ applyMacro E vis id k a s = some (.ok ret, s1) ∧
      ((v = .none ∧ r = .none) ∨
        ∃ e2, Fitted (locOf a.invocation) v e2 ∧ e2.isNone = false ∧
          ((s1.recursive = false ∧ r = e2) ∨ (s1.recursive = true ∧ vis e2 s1 = some (.ok r, s')))) := by
  unfold expand at h
  obtain ⟨r1, s1, h1, k1⟩ := bind_ok h
  cases r1 with
  | error e => cases k1
  | ok v =>
    have h1' : expandTry E vis k a s = some (.ok v, s1) := by
      simp only [M.attempt] at h1
      cases ht : expandTry E vis k a s with
      | none => rw [ht] at h1; cases h1
      | some p => rw [ht] at h1; obtain ⟨x, y⟩ := p; cases h1; rfl
    unfold expandTry at h1'
    rw [run_get, hb] at h1'
    obtain ⟨ret, s2, h2, h3⟩ := bind_ok h1'
    cases hc : checkRet ret with
    | none => rw [hc] at h3; cases h3
    | some v' =>
      rw [hc] at h3; cases h3
      obtain ⟨s0, hr⟩ := applyMacro_ret h2
      refine ⟨ret, v, s0, s1, hr, (checkRet_iff _ _).mp hc, h2, ?_⟩
      dsimp only at k1
      unfold visitExpansion at k1
      cases hv : v.isNone with
      | true =>
        rw [hv] at k1
        have h' : (some (.ok v, s1) : Option (Except Exc Val × St υ)) = some (.ok r, s') := k1
        cases h'
        have : r = Val.none := by
          cases r with
          | const c => cases c <;> first | rfl | (simp [Val.isNone] at hv)
          | list | node => cases hv
        subst this
        exact .inl ⟨rfl, rfl⟩
      | false =>
        rw [hv] at k1
        simp only [Bool.false_eq_true, if_false] at k1
        obtain ⟨e1, s3, h4, k6⟩ := bind_ok k1
        obtain ⟨h4', hs3⟩ := ofExcept_ok h4
        obtain ⟨e2, s4, h5, k7⟩ := bind_ok k6
        obtain ⟨h5', hs4⟩ := ofExcept_ok h5
        rw [hs4, hs3] at k7
        have ht : v.isTree = true := by
          rcases checkRet_shape hc with rfl | ht
          · cases hv
          · exact ht
        refine .inr ⟨e2, fitted_of ht (liftErr_ok h4') (liftErr_ok h5'), ?_, ?_⟩
        · obtain ⟨m, hm1, hm2⟩ := fixed_like ht (liftErr_ok h4') (liftErr_ok h5')
          cases hm1 with
          | const => cases ht
          | list => cases hm2; rfl
          | node => cases hm2; rfl
        · rw [run_get] at k7
          cases hrec : s1.recursive with
          | true => rw [hrec] at k7; exact .inr ⟨rfl, k7⟩
          | false =>
            rw [hrec] at k7
            have h' : (some (.ok e2, s1) : Option (Except Exc Val × St υ)) = some (.ok r, s') := k7
            cases h'; exact .inl ⟨rfl, rfl⟩

theorem insertCoverage_placed {filename k : String} {e r : Val} {old : Loc} {synt : Syn}
    (hs : synt = .block ∨ synt = .decorator) (h : insertCoverage filename k e old = .ok r) : Placed k synt e r := by
  unfold insertCoverage at h
  split at h
  · cases h; exact .stmt hs
  · split at h
    · cases h
    · split at h
      · cases h; exact .covered (e := .const .none) hs rfl
      · rename_i c l fs; cases h; exact .covered (e := .node c l fs) hs rfl
      · rename_i xs; cases h; exact .covered (e := .list xs) hs rfl
      · cases h

theorem afterExpand_placed {vis : Val → X υ Val} {t c e r : Val} {k : String} {synt : Syn} {s s' : St υ}
    (hn : synt ≠ .name) (he : e.isNone = false) (h : afterExpand E vis t k synt c e s = some (.ok r, s')) :
    Placed k synt e r := by
  unfold afterExpand at h
  cases synt with
  | expr =>
    rw [he] at h
    have h' : (some (.ok e, s) : Option (Except Exc Val × St υ)) = some (.ok r, s') := h
    cases h'; exact .expr he
  | block => exact insertCoverage_placed (.inl rfl) (ofExcept_ok h).1
  | decorator => exact insertCoverage_placed (.inr rfl) (ofExcept_ok h).1
  | name => exact absurd rfl hn

theorem itself_iff {k : String} {e : Val} : isSameName k e = true ↔ Itself k e := by
  unfold isSameName Itself
  constructor
  · intro h
    simp only [Bool.and_eq_true, beq_iff_eq] at h
    obtain ⟨l, fs, rfl⟩ := isK_eq h.1
    exact ⟨l, fs, rfl, h.2⟩
  · rintro ⟨l, fs, rfl, h⟩
    simp [Val.isK, Val.get?, h]

theorem Invokes.invocation_eq {w : World υ} {t c : Val} {k : String} {id : Nat} {a : MArgs}
    (h : Invokes E w t k id a c) : a.invocation = t := by
  cases h <;> rfl

/-- The visit of an invocation. -/
theorem visit_output {n : Nat} {t c : Val} {k : String} {id : Nat} {a : MArgs} {s s' : St υ} {r : Val}
    (hw : WellFormed t) (hi : Invokes E s.world t k id a c) (h : visit E (n + 1) t s = some (.ok r, s')) :
    ∃ s1 s2 ret v, s1.world = s.world ∧ run (visit E n) ((E.macros id).fn a) s1 = some (.ok ret, s2) ∧
      Accepted ret v ∧ (v = .none ∨ ∃ e, Fitted (locOf t) v e ∧
        ((s.recursive = false ∧ Placed k a.synt e r) ∨
         (s.recursive = true ∧ ((a.synt = .name ∧ Itself k e ∧ r = done e) ∨
          ∃ e' s3 s4, (a.synt = .name → ¬ Itself k e) ∧ s3.recursive = true ∧ visit E n e s3 = some (.ok e', s4) ∧
            (e'.isNone = true ∨ (a.synt = .name ∧ r = e') ∨ (a.synt ≠ .name ∧ Placed k a.synt e' r)))))) := by
  obtain ⟨h1, h2, h3⟩ := invokes_node hi
  rw [visit_node h1 h2 (bound_noBindings h3)] at h
  by_cases hc : BadCall c
  · rw [(visitNode_invokes (vis := visit E n) hw hi).2.2 hc] at h
    cases h
  · have hap := (visitNode_invokes (vis := visit E n) hw hi).2.1 hc
    rw [hap] at h
    obtain ⟨r', s1, h4, h5⟩ := bind_ok h
    unfold expandIn at h4
    by_cases hname : a.synt = .name
    · rw [if_pos hname] at h4
      obtain ⟨s0, h6, rfl⟩ := bracket_some h4
      obtain ⟨ret, v, s2, s3, hr, ha, happ, hcase⟩ := expand_ret (s := { s with recursive := false }) h3 h6
      have f3 : s3.recursive = false :=
        (applyMacro_pres frame_rel.toStep (user_pres frame_rel (visit_pres frame_rel E.all_true n) E.all_true) id k a
          { s with recursive := false } h3 _ _ happ).recursive
      refine ⟨_, s2, ret, v, ?_, hr, ha, ?_⟩
      · rfl
      · rcases hcase with ⟨rfl, -⟩ | ⟨e2, hf, hn, hrec | hrec⟩
        · exact .inl rfl
        · obtain ⟨-, rfl⟩ := hrec
          rw [hi.invocation_eq] at hf
          refine .inr ⟨r', hf, ?_⟩
          unfold afterExpand at h5
          rw [hname] at h5 ⊢
          simp only [hn, Bool.false_eq_true, if_false] at h5
          by_cases hsame : isSameName k r' = true
          · rw [if_pos hsame] at h5
            cases h5
            cases hsr : s.recursive with
            | false => exact .inl ⟨rfl, .done (itself_iff.mp hsame)⟩
            | true => exact .inr ⟨rfl, .inl ⟨rfl, itself_iff.mp hsame, rfl⟩⟩
          · rw [if_neg hsame, run_get] at h5
            cases hsr : s.recursive with
            | false =>
              rw [hsr] at h5; cases h5
              exact .inl ⟨rfl, .name hn fun h => hsame (itself_iff.mpr h)⟩
            | true =>
              rw [hsr] at h5
              refine .inr ⟨rfl, .inr ⟨r, _, s', fun _ h => hsame (itself_iff.mpr h), ?_, h5, .inr (.inl ⟨rfl, rfl⟩)⟩⟩
              rfl
        · rw [f3] at hrec; cases hrec.1
    · rw [if_neg hname] at h4
      obtain ⟨ret, v, s2, s3, hr, ha, happ, hcase⟩ := expand_ret h3 h4
      have f3 : s3.recursive = s.recursive :=
        (applyMacro_pres frame_rel.toStep (user_pres frame_rel (visit_pres frame_rel E.all_true n) E.all_true) id k a
          s h3 _ _ happ).recursive
      refine ⟨_, s2, ret, v, ?_, hr, ha, ?_⟩
      · rfl
      · rcases hcase with ⟨rfl, -⟩ | ⟨e2, hf, hn, hrec | hrec⟩
        · exact .inl rfl
        · obtain ⟨hr0, rfl⟩ := hrec
          rw [hi.invocation_eq] at hf
          exact .inr ⟨r', hf, .inl ⟨f3.symm.trans hr0, afterExpand_placed hname hn h5⟩⟩
        · obtain ⟨hr0, hv⟩ := hrec
          rw [hi.invocation_eq] at hf
          refine .inr ⟨e2, hf, .inr ⟨f3.symm.trans hr0, .inr ⟨r', s3, s1, fun h => absurd h hname, hr0, hv, ?_⟩⟩⟩
          cases hrn : r'.isNone with
          | true => exact .inl rfl
          | false => exact .inr (.inr ⟨hname, afterExpand_placed hname hrn h5⟩)

end Mcpyrate.Expander
