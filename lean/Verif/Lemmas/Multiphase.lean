import Verif.Spec.Multiphase
import Verif.Lemmas.ExpanderOrder
import Verif.Lemmas.FutureImports
import Verif.Lemmas.Modules
namespace Mcpyrate.Multiphase
open Py Modules Expander

theorem IsPhase.unique {t : Val} {n m : Nat} {b b' : List Val} (h : IsPhase t n b) (h' : IsPhase t m b') :
    n = m ∧ b = b' := by
  obtain ⟨_, hb, _, i, s, nm, c, h1, _, h2, _, _, _, _, h3, _, h4⟩ := h
  obtain ⟨_, hb', _, i', s', nm', c', h1', _, h2', _, _, _, _, h3', _, h4'⟩ := h'
  rw [hb] at hb'; rw [h1] at h1'
  simp only [Option.some.injEq, Val.list.injEq, List.cons.injEq, and_true] at hb' h1'
  subst h1'
  rw [h2] at h2'; cases h2'
  rw [h3] at h3'; cases h3'
  refine ⟨?_, hb'⟩
  rcases h4 with h4 | ⟨rfl, h4⟩ <;> rcases h4' with h4' | ⟨rfl, h4'⟩ <;> rw [h4] at h4'
  · simp only [Option.some.injEq, Val.const.injEq, Const.int.injEq] at h4'; omega
  · cases h4'
  · cases h4'

theorem hasField_get {t : Val} {f : F} (h : hasField t f = true) : ∃ v, t.get? f = some v :=
  Option.isSome_iff_exists.1 h

/-- `iswithphase` decides `IsPhase`. -/
theorem iswithphase_spec {t : Val} (ht : Parsed [t]) :
    ∃ p, iswithphase t = .ok p ∧ ∀ n, p = some n ↔ ∃ b, IsPhase t n b := by
  have hnone : (∀ n b, ¬ IsPhase t n b) → iswithphase t = .ok none →
      ∃ p, iswithphase t = .ok p ∧ ∀ n, p = some n ↔ ∃ b, IsPhase t n b := by
    intro h1 h2
    refine ⟨none, h2, fun n => ⟨fun h => (by cases h), fun ⟨b, hb⟩ => absurd hb (h1 n b)⟩⟩
  by_cases hw : t.isK .With = true
  case neg =>
    refine hnone (fun n b h => hw h.1) ?_
    unfold iswithphase; rw [if_neg hw]; rfl
  obtain ⟨items, b, hi, hb, hitems⟩ := ht t (by simp) hw
  have hat : attr t .items = .ok (.list items) := by unfold attr; rw [hi]
  by_cases hl : ∃ item, items = [item]
  case neg =>
    refine hnone (fun n b' h => ?_) ?_
    · obtain ⟨_, _, _, i, _, _, _, h1, _⟩ := h
      rw [hi] at h1
      simp only [Option.some.injEq, Val.list.injEq] at h1
      exact hl ⟨i, h1⟩
    · unfold iswithphase; rw [if_pos hw, hat]
      match items, hl with
      | [], _ => rfl
      | _ :: _ :: _, _ => rfl
      | [i], hl => exact absurd ⟨i, rfl⟩ hl
  obtain ⟨item, rfl⟩ := hl
  obtain ⟨c, hc, hcs⟩ := hitems item (by simp)
  have hatc : attr item .context_expr = .ok c := by unfold attr; rw [hc]
  have heq : iswithphase t =
      (if (item.get? .optional_vars).getD .none != .none then .ok none
       else if c.isK .Subscript then (do
          match ← lowerExc (Expander.destructure true c) with
          | some (name, args) =>
            if name != "phase" then return none
            else match args with
              | [arg] => literal arg
              | _ => return none
          | none => return none)
        else .ok none) := by
    unfold iswithphase; rw [if_pos hw, hat]
    change (if _ then _ else _) = _
    rw [hatc]
    rfl
  have hitem : ∀ {n b'}, IsPhase t n b' → (item.get? .optional_vars).getD .none = .none ∧
      ∃ nm a, c.isK .Subscript = true ∧ c.get? .value = some nm ∧ nm.isK .Name = true ∧
        nm.get? .id = some (.str "phase") ∧ c.get? .slice = some a ∧ a.isK .Constant = true ∧
        (a.get? .value = some (.int n) ∨ n = 1 ∧ a.get? .value = some (.const (.bool true))) := by
    intro n b' h
    obtain ⟨_, _, _, i, s, nm, a, h1, h2, h3, h4, h5, h6, h7, h8, h9, h10⟩ := h
    rw [hi] at h1
    simp only [Option.some.injEq, Val.list.injEq, List.cons.injEq, and_true] at h1
    subst h1
    rw [hc] at h3; cases h3
    exact ⟨h2, nm, a, h4, h5, h6, h7, h8, h9, h10⟩
  by_cases ho : (item.get? .optional_vars).getD .none = .none
  case neg =>
    refine hnone (fun n b' h => ho (hitem h).1) ?_
    rw [heq, if_pos (by simpa using ho)]
  rw [heq, if_neg (by simpa using ho)]
  rw [heq, if_neg (by simpa using ho)] at hnone
  by_cases hsub : c.isK .Subscript = true
  case neg =>
    refine hnone (fun n b' h => ?_) ?_
    · obtain ⟨_, _, _, h, _⟩ := hitem h; exact hsub h
    · rw [if_neg hsub]
  rw [if_pos hsub] at hnone ⊢
  obtain ⟨v, a, hv, ha, hfv, hfa, hca, htup⟩ := hcs hsub
  have hname : c.isK .Name = false := by
    obtain ⟨l, fs, rfl⟩ := isK_eq hsub; rfl
  by_cases hvn : v.isK .Name = true
  case neg =>
    have hd : destructure true c = .ok none := by
      unfold destructure
      rw [hname, if_neg (by simp), if_pos hsub, attr_eq hv]
      change (if _ then _ else _) = _
      rw [if_neg hvn]; rfl
    refine hnone (fun n b' h => ?_) ?_
    · obtain ⟨_, nm, _, _, h1, h2, _⟩ := hitem h
      rw [hv] at h1; cases h1; exact hvn h2
    · rw [hd]; rfl
  obtain ⟨i, hvi⟩ : ∃ i, v.get? .id = some i := by
    obtain ⟨l, fs, rfl⟩ := isK_eq hvn
    exact hasField_get hfv
  obtain ⟨args, hd', hargs⟩ : ∃ args, destructure true c = .ok ((asName i).map (·, args)) ∧
      (a.isK .Tuple = false → args = [a]) := by
    unfold destructure
    rw [hname, if_neg (by simp), if_pos hsub, attr_eq hv]
    change ∃ args, (if v.isK .Name = true then _ else _) = Except.ok ((asName i).map (·, args)) ∧ _
    rw [if_pos hvn, attr_eq ha, attr_eq hvi]
    by_cases hat : a.isK .Tuple = true
    · obtain ⟨l, fs, rfl⟩ := isK_eq hat
      change hasList _ _ = true at hfa
      unfold hasList at hfa
      split at hfa
      · rename_i xs hx
        refine ⟨xs, ?_, fun h => absurd hat (by rw [h]; simp)⟩
        simp only [bind, Except.bind, attr_eq hx, asList, pure, Except.pure, hat, if_true]
      · cases hfa
    · refine ⟨[a], ?_, fun _ => rfl⟩
      simp only [bind, Except.bind, pure, Except.pure, hat, if_false, Bool.false_eq_true]
  rw [hd'] at hnone ⊢
  by_cases hph : i = .str "phase"
  case neg =>
    refine hnone (fun n b' h => ?_) ?_
    · obtain ⟨_, nm, _, _, h1, _, h2, _⟩ := hitem h
      rw [hv] at h1; cases h1
      rw [hvi] at h2; cases h2; exact hph rfl
    · cases hn : asName i with
      | none => rfl
      | some s =>
        have hi' := asName_some.1 hn
        have : s ≠ "phase" := by rintro rfl; exact hph hi'
        change (if (s != "phase") = true then _ else _) = _
        rw [if_pos (by simpa using this)]; rfl
  subst hph
  have hnt := htup hvi
  obtain rfl := hargs hnt
  change ∃ p, literal a = .ok p ∧ _
  replace hnone : (∀ n b, ¬ IsPhase t n b) → literal a = .ok none →
    ∃ p, literal a = .ok p ∧ ∀ n, p = some n ↔ ∃ b, IsPhase t n b := hnone
  have hlit : ∀ {n b'}, IsPhase t n b' → a.isK .Constant = true ∧
      (a.get? .value = some (.int n) ∨ n = 1 ∧ a.get? .value = some (.const (.bool true))) := by
    intro n b' h
    obtain ⟨_, nm, a', _, _, _, _, h1, h2, h3⟩ := hitem h
    rw [ha] at h1; cases h1
    exact ⟨h2, h3⟩
  by_cases hcon : a.isK .Constant = true
  case neg =>
    refine hnone (fun n b' h => hcon (hlit h).1) ?_
    unfold literal; rw [if_neg hcon]
  have hmk : ∀ n : Nat, 1 ≤ n → (a.get? .value = some (.int n) ∨ n = 1 ∧ a.get? .value = some (.const (.bool true))) →
      IsPhase t n b := fun n h1 h2 =>
    ⟨hw, hb, h1, item, c, v, a, hi, ho, hc, hsub, hv, hvn, hvi, ha, hcon, h2⟩
  obtain ⟨x, hx⟩ := Option.isSome_iff_exists.1 (hca hcon)
  unfold literal at hnone ⊢
  rw [if_pos hcon, hx] at hnone ⊢
  match x, hx with
  | .const (.int k), hx =>
    dsimp only at hnone ⊢
    by_cases hk : k < 1
    · refine hnone (fun n b' h => ?_) (by rw [if_pos hk])
      have h1 := h.2.2.1
      rcases (hlit h).2 with h2 | ⟨_, h2⟩
      · rw [hx] at h2
        simp only [Option.some.injEq, Val.const.injEq, Const.int.injEq] at h2
        omega
      · rw [hx] at h2; cases h2
    · rw [if_neg hk]
      refine ⟨_, rfl, fun n => ⟨fun h => ?_, fun ⟨b', h⟩ => ?_⟩⟩
      · simp only [Option.some.injEq] at h
        exact ⟨b, hmk n (by omega) (.inl (by rw [hx, ← h]; congr 3; omega))⟩
      · rcases (hlit h).2 with h2 | ⟨_, h2⟩
        · rw [hx] at h2
          simp only [Option.some.injEq, Val.const.injEq, Const.int.injEq] at h2
          simp only [Option.some.injEq]; omega
        · rw [hx] at h2; cases h2
  | .const (.bool true), hx =>
    refine ⟨some 1, rfl, fun n => ⟨fun h => ?_, fun ⟨b', h⟩ => ?_⟩⟩
    · cases h; exact ⟨b, hmk 1 (by omega) (.inr ⟨rfl, hx⟩)⟩
    · rcases (hlit h).2 with h2 | ⟨h2, _⟩
      · rw [hx] at h2; cases h2
      · rw [h2]
  | .const (.bool false), hx =>
    refine hnone (fun n b' h => ?_) rfl
    rcases (hlit h).2 with h2 | ⟨_, h2⟩ <;> rw [hx] at h2 <;> cases h2
  | .const .none, hx =>
    refine hnone (fun n b' h => ?_) rfl
    rcases (hlit h).2 with h2 | ⟨_, h2⟩ <;> rw [hx] at h2 <;> cases h2
  | .const (.str _), hx =>
    refine hnone (fun n b' h => ?_) rfl
    rcases (hlit h).2 with h2 | ⟨_, h2⟩ <;> rw [hx] at h2 <;> cases h2
  | .const (.bytes _), hx =>
    refine hnone (fun n b' h => ?_) rfl
    rcases (hlit h).2 with h2 | ⟨_, h2⟩ <;> rw [hx] at h2 <;> cases h2
  | .const (.float _), hx =>
    refine hnone (fun n b' h => ?_) rfl
    rcases (hlit h).2 with h2 | ⟨_, h2⟩ <;> rw [hx] at h2 <;> cases h2
  | .const (.complex _), hx =>
    refine hnone (fun n b' h => ?_) rfl
    rcases (hlit h).2 with h2 | ⟨_, h2⟩ <;> rw [hx] at h2 <;> cases h2
  | .const .ellipsis, hx =>
    refine hnone (fun n b' h => ?_) rfl
    rcases (hlit h).2 with h2 | ⟨_, h2⟩ <;> rw [hx] at h2 <;> cases h2
  | .list _, hx =>
    refine hnone (fun n b' h => ?_) rfl
    rcases (hlit h).2 with h2 | ⟨_, h2⟩ <;> rw [hx] at h2 <;> cases h2
  | .node _ _ _, hx =>
    refine hnone (fun n b' h => ?_) rfl
    rcases (hlit h).2 with h2 | ⟨_, h2⟩ <;> rw [hx] at h2 <;> cases h2

theorem isK_withField {t v : Val} {f : F} {k : K} : (withField t f v).isK k = t.isK k := by
  cases t with
  | node c l fs => cases c <;> rfl
  | _ => rfl

theorem IsPhase.parsed {t : Val} {n : Nat} {b : List Val} (h : IsPhase t n b) : Parsed [t] := by
  intro u hu hw
  simp only [List.mem_singleton] at hu
  subst hu
  obtain ⟨_, hb, _, i, s, nm, c, h1, _, h2, h3, h4, h5, h6, h7, h8, h9⟩ := h
  refine ⟨[i], b, h1, hb, fun item hi => ?_⟩
  simp only [List.mem_singleton] at hi
  subst hi
  refine ⟨s, h2, fun _ => ⟨nm, c, h4, h7, ?_, ?_, fun _ => ?_, fun _ => ?_⟩⟩
  · obtain ⟨l, fs, rfl⟩ := isK_eq h5
    change hasField _ _ = true
    simp [hasField, h6]
  · obtain ⟨l, fs, rfl⟩ := isK_eq h8; rfl
  · rcases h9 with h9 | ⟨_, h9⟩ <;> simp [h9]
  · obtain ⟨l, fs, rfl⟩ := isK_eq h8; rfl

theorem lower_isPhase {t : Val} {n : Nat} {b : List Val} (h : IsPhase t (n + 2) b) :
    IsPhase (lower t) (n + 1) b := by
  obtain ⟨hw, hb, _, i, s, nm, c, h1, h1o, h2, h3, h4, h5, h6, h7, h8, h9⟩ := h
  have h9 : c.get? .value = some (.int (n + 2 : Nat)) := by
    rcases h9 with h9 | ⟨h9, _⟩
    · exact h9
    · omega
  have hl : lower t = withField t .items (.list [withField i .context_expr
      (withField s .slice (withField c .value (.int ((n + 2 : Nat) - 1))))]) := by
    obtain ⟨l, fs, rfl⟩ := isK_eq hw
    obtain ⟨ls, fss, rfl⟩ := isK_eq h3
    obtain ⟨lc, fsc, rfl⟩ := isK_eq h8
    match i, h2 with
    | .node ci li fi, h2 =>
      unfold lower
      simp only [h1, h2, h7, h8, h9, if_true]
      rfl
  rw [hl]
  refine ⟨by rw [isK_withField]; exact hw, by rw [withField_get_ne (by decide)]; exact hb, by omega,
    _, _, nm, _, withField_get h1, by rw [withField_get_ne (by decide)]; exact h1o, withField_get h2,
    by rw [isK_withField]; exact h3, by rw [withField_get_ne (by decide)]; exact h4, h5, h6,
    withField_get h7, by rw [isK_withField]; exact h8, .inl ?_⟩
  rw [withField_get h9]
  congr 3
  omega

theorem IsPhase.not_future {t : Val} {n : Nat} {b : List Val} (h : IsPhase t n b) :
    ¬ FutureImports.IsFuture t := by
  rintro ⟨hf, _⟩
  obtain ⟨l, fs, rfl⟩ := isK_eq h.1
  cases hf

theorem AtPhase.unique {k : Nat} {body c c' : List Val} (h : AtPhase k body c) (h' : AtPhase k body c') :
    c = c' := by
  induction h generalizing c' with
  | nil => cases h'; rfl
  | block hp hk _ ih =>
    cases h' with
    | block hp' _ h' => rw [(hp.unique hp').2, ih h']
    | lower hp' hk' h' => have := (hp.unique hp').1; omega
    | plain hn => exact absurd hp (hn _ _)
    | future hf => exact absurd hf hp.not_future
    | other hn => exact absurd hp (hn _ _)
  | lower hp hk _ ih =>
    cases h' with
    | block hp' _ h' => have := (hp.unique hp').1; omega
    | lower hp' hk' h' => exact ih h'
    | plain hn => exact absurd hp (hn _ _)
    | future hf => exact absurd hf hp.not_future
    | other hn => exact absurd hp (hn _ _)
  | plain hn h0 _ ih =>
    cases h' with
    | block hp' _ h' => exact absurd hp' (hn _ _)
    | lower hp' hk' h' => exact absurd hp' (hn _ _)
    | plain _ _ h' => rw [ih h']
    | future _ _ h' => rw [ih h']
    | other _ _ h1 => omega
  | future hf h0 _ ih =>
    cases h' with
    | block hp' _ h' => exact absurd hf hp'.not_future
    | lower hp' hk' h' => exact absurd hf hp'.not_future
    | plain _ _ h' => rw [ih h']
    | future _ _ h' => rw [ih h']
    | other _ h1 => exact absurd hf h1
  | other hn hf h0 _ ih =>
    cases h' with
    | block hp' _ h' => exact absurd hp' (hn _ _)
    | lower hp' hk' h' => exact absurd hp' (hn _ _)
    | plain _ h1 => omega
    | future h1 => exact absurd h1 hf
    | other _ _ _ h' => exact ih h'

/-- All phases are at most `k`. -/
def UpTo (k : Nat) (body : List Val) : Prop := ∀ t ∈ body, ∀ n b, IsPhase t n b → n ≤ k

theorem extract_spec {k : Nat} (hk : 1 ≤ k) {cur : List Val} (hp : Parsed cur) (hu : UpTo k cur) :
    ∃ this rest, extractPhase k cur = .ok (this, rest) ∧ AtPhase k cur this ∧
      (k = 1 → AtPhase 0 cur rest) ∧
      (2 ≤ k → Parsed rest ∧ UpTo (k - 1) rest ∧ ∀ j, j < k → ∀ code, AtPhase j rest code → AtPhase j cur code) := by
  induction cur with
  | nil =>
    refine ⟨[], [], rfl, .nil, fun _ => .nil, fun _ => ⟨by simp [Parsed], by simp [UpTo], fun _ _ _ h => h⟩⟩
  | cons t ts ih =>
    obtain ⟨this, rest, h1, h2, h3, h4⟩ := ih (fun x hx => hp x (by simp [hx])) (fun x hx => hu x (by simp [hx]))
    have hpt : Parsed [t] := fun x hx => hp x (by simp at hx; simp [hx])
    obtain ⟨p, hq, hspec⟩ := iswithphase_spec hpt
    by_cases hpk : p = some k
    · obtain ⟨b, hb⟩ := (hspec k).1 hpk
      have hbo : bodyOf t = .ok b := by unfold bodyOf; rw [hb.2.1]
      refine ⟨b ++ this, if k = 1 then b ++ rest else lower t :: rest, ?_, .block hb (Nat.le_refl _) h2,
        fun e => ?_, fun h => ?_⟩
      · simp only [extractPhase, bind, Except.bind, hq, if_pos hpk, hbo, h1, pure, Except.pure]
      · subst e
        rw [if_pos rfl]
        exact .block hb (by omega) (h3 rfl)
      · rw [if_neg (by omega)]
        obtain ⟨g1, g2, g3⟩ := h4 h
        obtain ⟨k', rfl⟩ : ∃ k', k = k' + 2 := ⟨k - 2, by omega⟩
        have hlow := lower_isPhase hb
        refine ⟨fun x hx => ?_, fun x hx n b' hn => ?_, fun j hj code hc => ?_⟩
        · rcases List.mem_cons.1 hx with rfl | hx
          · exact hlow.parsed _ (by simp)
          · exact g1 x hx
        · rcases List.mem_cons.1 hx with rfl | hx
          · have := (hn.unique hlow).1; omega
          · exact g2 x hx n b' hn
        · cases hc with
          | block hp' _ h' =>
            rw [(hp'.unique hlow).2]
            exact .block hb (by omega) (g3 j hj _ h')
          | lower hp' hk' h' => have := (hp'.unique hlow).1; omega
          | plain hn => exact absurd hlow (hn _ _)
          | future hf => exact absurd hf hlow.not_future
          | other hn => exact absurd hlow (hn _ _)
    · have hne : ∀ n b, IsPhase t n b → n < k := by
        intro n b hb
        have := hu t (by simp) n b hb
        have hnk : n ≠ k := by
          rintro rfl; exact hpk ((hspec n).2 ⟨b, hb⟩)
        omega
      have hfut := FutureImports.isfutureimport_iff t
      refine ⟨if FutureImports.isfutureimport t then t :: this else this, t :: rest, ?_, ?_, fun e => ?_, fun h => ?_⟩
      · simp only [extractPhase, bind, Except.bind, hq, if_neg hpk, h1, pure, Except.pure]
      · by_cases hf : FutureImports.isfutureimport t = true
        · rw [if_pos hf]
          exact .future (hfut.1 hf) (by omega) h2
        · rw [if_neg hf]
          by_cases hph : ∃ n b, IsPhase t n b
          · obtain ⟨n, b, hb⟩ := hph
            exact .lower hb (hne n b hb) h2
          · exact .other (fun n b hb => hph ⟨n, b, hb⟩) (fun h => hf (hfut.2 h)) (by omega) h2
      · refine .plain (fun n b hb => ?_) rfl (h3 e)
        have := hne n b hb
        have := hb.2.2.1
        omega
      · obtain ⟨g1, g2, g3⟩ := h4 h
        refine ⟨fun x hx => ?_, fun x hx n b' hn => ?_, fun j hj code hc => ?_⟩
        · rcases List.mem_cons.1 hx with rfl | hx
          · exact hpt _ (by simp)
          · exact g1 x hx
        · rcases List.mem_cons.1 hx with rfl | hx
          · have := hne n b' hn; omega
          · exact g2 x hx n b' hn
        · cases hc with
          | block hp' h0 h' => exact .block hp' h0 (g3 j hj _ h')
          | lower hp' hk' h' => exact .lower hp' hk' (g3 j hj _ h')
          | plain hn h0 h' => exact .plain hn h0 (g3 j hj _ h')
          | future hf h0 h' => exact .future hf h0 (g3 j hj _ h')
          | other hn hf h0 h' => exact .other hn hf h0 (g3 j hj _ h')

theorem detect_spec {body : List Val} (hp : Parsed body) (m : Option Nat) :
    ∃ r, detectHighest body m = .ok r ∧ (body ≠ [] ∨ m.isSome → ∃ n, r = some n ∧
      UpTo n body ∧ m.getD 0 ≤ n ∧ (n = m.getD 0 ∨ ∃ t ∈ body, ∃ b, IsPhase t n b)) ∧ (body = [] → r = m) := by
  induction body generalizing m with
  | nil =>
    refine ⟨m, rfl, fun h => ?_, fun _ => rfl⟩
    rcases h with h | h
    · exact absurd rfl h
    · obtain ⟨n, rfl⟩ := Option.isSome_iff_exists.1 h
      exact ⟨n, rfl, by simp [UpTo], Nat.le_refl _, .inl rfl⟩
  | cons t ts ih =>
    have hpt : Parsed [t] := fun x hx => hp x (by simp at hx; simp [hx])
    obtain ⟨p, hq, hspec⟩ := iswithphase_spec hpt
    obtain ⟨r, h1, h2, _⟩ := ih (fun x hx => hp x (by simp [hx]))
      (match m with
      | none => some (p.getD 0)
      | some m => some (if p.getD 0 > m then p.getD 0 else m))
    refine ⟨r, ?_, fun _ => ?_, by simp⟩
    · simp only [detectHighest, bind, Except.bind, hq]
      exact h1
    · obtain ⟨n, rfl, g1, g2, g3⟩ := h2 (.inr (by cases m <;> rfl))
      have hge : p.getD 0 ≤ n ∧ m.getD 0 ≤ n := by
        cases m with
        | none => simp at g2 ⊢; omega
        | some m =>
          simp only [Option.getD_some] at g2 ⊢
          split at g2 <;> omega
      refine ⟨n, rfl, fun x hx k b hb => ?_, hge.2, ?_⟩
      · rcases List.mem_cons.1 hx with rfl | hx
        · have := (hspec k).2 ⟨b, hb⟩
          rw [this] at hge; simpa using hge.1
        · exact g1 x hx k b hb
      · rcases g3 with g3 | ⟨x, hx, b, hb⟩
        · have key : n = p.getD 0 ∨ n = m.getD 0 := by
            cases m with
            | none => left; simpa using g3
            | some m =>
              simp only [Option.getD_some] at g3 ⊢
              split at g3 <;> omega
          rcases key with key | key
          · cases p with
            | none => left; simp at key; omega
            | some q =>
              simp only [Option.getD_some] at key
              subst key
              obtain ⟨b, hb⟩ := (hspec n).1 rfl
              exact .inr ⟨t, by simp, b, hb⟩
          · exact .inl key
        · exact .inr ⟨x, by simp [hx], b, hb⟩

variable {τ : Type}

theorem loop_staged {C : Compiler τ} {module : Nat} {orig : List Val} (k : Nat) {cur : List Val}
    (h0 : k = 0 → AtPhase 0 orig cur)
    (hk : 1 ≤ k → Parsed cur ∧ UpTo k cur ∧ ∀ j, j ≤ k → ∀ code, AtPhase j cur code → AtPhase j orig code)
    {s s' : Sys × τ} {r : Except Err (Option (List Val))} (h : loop C module k cur s = (r, s')) :
    Staged C module orig k s r s' := by
  induction k generalizing cur s with
  | zero =>
    have ha := h0 rfl
    rw [loop] at h
    split at h
    · rename_i he
      cases h
      subst he
      exact .empty ha
    · rename_i hne
      split at h
      · rename_i e hi
        cases h
        exact .malformed ha hi
      · rename_i b hi
        split at h
        · rename_i e s1 he
          cases h
          exact .last (r := .error e) ha hne hi he
        · rename_i r1 s1 he
          cases h
          exact .last (r := .ok r1) ha hne hi he
  | succ k ih =>
    obtain ⟨hp, hu, hat⟩ := hk (by omega)
    obtain ⟨this, rest, h1, h2, h3, h4⟩ := extract_spec (by omega) hp hu
    have ha := hat (k + 1) (Nat.le_refl _) this h2
    have hz : k = 0 → AtPhase 0 orig rest := fun e => hat 0 (by omega) _ (h3 (by omega))
    have hs : 1 ≤ k → Parsed rest ∧ UpTo k rest ∧ ∀ j, j ≤ k → ∀ code, AtPhase j rest code → AtPhase j orig code :=
      fun e => by
        obtain ⟨g1, g2, g3⟩ := h4 (by omega)
        exact ⟨g1, g2, fun j hj code hc => hat j (by omega) code (g3 j (by omega) code hc)⟩
    rw [loop, h1] at h
    dsimp only at h
    split at h
    · rename_i he
      subst he
      exact .skip ha (ih hz hs h)
    · rename_i hne
      split at h
      · rename_i e hi
        cases h
        exact .malformed ha hi
      · rename_i b hi
        split at h
        · rename_i e s1 he
          cases h
          exact .fails ha hne hi he
        · rename_i s1 he
          exact .run ha hne hi he (ih hz hs h)

end Mcpyrate.Multiphase
