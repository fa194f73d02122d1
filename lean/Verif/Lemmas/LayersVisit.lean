import Verif.Lemmas.Layers
import Verif.Lemmas.Output
/-
The expander computes the relation.
-/
namespace Mcpyrate.Expander.Layers
open Py

variable {υ : Type} {E : Env υ} {w : World υ} {b : Bool}

theorem tidyMacros_append {l m : List App} (h : TidyMacros E (l ++ m)) : TidyMacros E l ∧ TidyMacros E m :=
  ⟨fun e he => h e (List.mem_append_left _ he), fun e he => h e (List.mem_append_right _ he)⟩

theorem tidyMacros_trans {s s1 s2 : St υ} (h1 : Frame s s1) (h2 : Frame s1 s2) :
    TidyMacros E (fresh s s2) ↔ TidyMacros E (fresh s s1) ∧ TidyMacros E (fresh s1 s2) := by
  rw [fresh_trans h1 h2]
  constructor
  · exact tidyMacros_append
  · rintro ⟨h1, h2⟩ e he
    rcases List.mem_append.mp he with he | he
    · exact h1 e he
    · exact h2 e he

theorem tidyMacros_self (s : St υ) : TidyMacros E (fresh s s) := by
  rw [fresh_self]; intro e he; cases he

/-- A state in which only the log matters. -/
structure OkS (w : World υ) (b : Bool) (s : St υ) : Prop where
  world : s.world = w
  hook : s.hook = none
  mode : s.recursive = b

theorem OkS.frame {s s' : St υ} (h : OkS w b s) (hf : Frame s s') (hw : s'.world = w) : OkS w b s' :=
  ⟨hw, hf.hook.trans h.hook, hf.recursive.trans h.mode⟩

theorem visit_frame (E : Env υ) (n : Nat) (x : Val) {s s' : St υ} {r : Except Exc Val} (h : visit E n x s = some (r, s')) : Frame s s' :=
  visit_pres frame_rel E.all_true n x s r s' h

/-! ### from runs to the relation -/

def UpAt (E : Env υ) (w : World υ) (b : Bool) (n : Nat) (R : Val → Val → Prop) (x : Val) : Prop :=
  ∀ s y s', OkS w b s → visit E n x s = some (.ok y, s') → TidyMacros E (fresh s s') → s'.world = w ∧ R x y

theorem items_up {n : Nat} {R : Val → Val → Prop} : ∀ (xs : List Val), (∀ x ∈ xs, x.isAST = true → UpAt E w b n R x) →
    ∀ s ys s', OkS w b s → genericItems (visit E n) xs s = some (.ok ys, s') →
      Frame s s' ∧ (TidyMacros E (fresh s s') → s'.world = w ∧ GenL R xs ys)
  | [], _, s, ys, s', hs, h => by
    have h' : (some (.ok [], s) : Option (Except Exc (List Val) × St υ)) = some (.ok ys, s') := h
    cases h'
    exact ⟨frame_refl _, fun _ => ⟨hs.world, .nil⟩⟩
  | x :: xs, hv, s, ys, s', hs, h => by
    unfold genericItems at h
    cases hx : x.isAST with
    | true =>
      rw [hx, if_pos rfl] at h
      obtain ⟨y, s1, h1, h⟩ := bind_ok h
      obtain ⟨zs, s2, h2, h⟩ := bind_ok h
      have h' : (some (.ok (Markers.spliceResult y ++ zs), s2) : Option (Except Exc (List Val) × St υ)) = some (.ok ys, s') := h
      cases h'
      have f1 := visit_frame E n x h1
      have f2 : Frame s1 s' := genericItems_pres frame_rel.toStep (visit_pres frame_rel E.all_true n) xs _ _ _ h2
      refine ⟨f1.trans f2, fun ht => ?_⟩
      rw [tidyMacros_trans f1 f2] at ht
      obtain ⟨w1, r1⟩ := hv x (by simp) hx s y s1 hs h1 ht.1
      obtain ⟨-, h3⟩ := items_up xs (fun z hz => hv z (by simp [hz])) s1 zs s' (hs.frame f1 w1) h2
      exact ⟨(h3 ht.2).1, .item hx r1 (h3 ht.2).2⟩
    | false =>
      rw [hx, if_neg (by simp)] at h
      obtain ⟨zs, s2, h2, h⟩ := bind_ok h
      have h' : (some (.ok (x :: zs), s2) : Option (Except Exc (List Val) × St υ)) = some (.ok ys, s') := h
      cases h'
      obtain ⟨f, h3⟩ := items_up xs (fun z hz => hv z (by simp [hz])) s zs s' hs h2
      exact ⟨f, fun ht => ⟨(h3 ht).1, .other hx (h3 ht).2⟩⟩

theorem fields_up {n : Nat} {R : Val → Val → Prop} (c : Cls) (l : Loc) : ∀ (fs : Fields),
    (∀ x ∈ childNodes (.node c l fs), UpAt E w b n R x) →
    ∀ s fs' s', OkS w b s → genericFields (visit E n) fs s = some (.ok fs', s') →
      Frame s s' ∧ (TidyMacros E (fresh s s') → s'.world = w ∧ GenF R fs fs')
  | [], _, s, ys, s', hs, h => by
    have h' : (some (.ok [], s) : Option (Except Exc Fields × St υ)) = some (.ok ys, s') := h
    cases h'
    exact ⟨frame_refl _, fun _ => ⟨hs.world, .nil⟩⟩
  | (f, v) :: fs, hv, s, fs', s', hs, h => by
    have hvr : ∀ x ∈ childNodes (.node c l fs), UpAt E w b n R x := by
      intro x hx
      refine hv x ?_
      simp only [childNodes, List.mem_flatMap] at hx ⊢
      obtain ⟨q, hq, hx⟩ := hx
      exact ⟨q, List.mem_cons_of_mem _ hq, hx⟩
    cases v with
    | const k =>
      obtain ⟨zs, s2, h2, h⟩ := bind_ok (m := genericFields (visit E n) fs) h
      have h' : (some (.ok ((f, Val.const k) :: zs), s2) : Option (Except Exc Fields × St υ)) = some (.ok fs', s') := h
      cases h'
      obtain ⟨f2, h3⟩ := fields_up c l fs hvr s zs s' hs h2
      exact ⟨f2, fun ht => ⟨(h3 ht).1, .const (h3 ht).2⟩⟩
    | list xs =>
      obtain ⟨ys, s1, h1, h⟩ := bind_ok (m := genericItems (visit E n) xs) h
      obtain ⟨zs, s2, h2, h⟩ := bind_ok h
      have h' : (some (.ok ((f, Val.list ys) :: zs), s2) : Option (Except Exc Fields × St υ)) = some (.ok fs', s') := h
      cases h'
      obtain ⟨f1, h3⟩ := items_up xs (fun x hx hxa => hv x (by simp [childNodes, hx, hxa])) s ys s1 hs h1
      have f2 : Frame s1 s' := genericFields_pres frame_rel.toStep (visit_pres frame_rel E.all_true n) fs _ _ _ h2
      refine ⟨f1.trans f2, fun ht => ?_⟩
      rw [tidyMacros_trans f1 f2] at ht
      obtain ⟨w1, r1⟩ := h3 ht.1
      obtain ⟨-, h4⟩ := fields_up c l fs hvr s1 zs s' (hs.frame f1 w1) h2
      exact ⟨(h4 ht.2).1, .list r1 (h4 ht.2).2⟩
    | node c' l' gs =>
      obtain ⟨y, s1, h1, h⟩ := bind_ok (m := visit E n (.node c' l' gs)) h
      obtain ⟨zs, s2, h2, h⟩ := bind_ok h
      have h' : (some (.ok (if y.isNone then zs else (f, y) :: zs), s2) : Option (Except Exc Fields × St υ)) = some (.ok fs', s') := h
      cases h'
      have f1 := visit_frame E n _ h1
      have f2 : Frame s1 s' := genericFields_pres frame_rel.toStep (visit_pres frame_rel E.all_true n) fs _ _ _ h2
      refine ⟨f1.trans f2, fun ht => ?_⟩
      rw [tidyMacros_trans f1 f2] at ht
      obtain ⟨w1, r1⟩ := hv (.node c' l' gs) (by simp [childNodes]) s y s1 hs h1 ht.1
      obtain ⟨-, h4⟩ := fields_up c l fs hvr s1 zs s' (hs.frame f1 w1) h2
      refine ⟨(h4 ht.2).1, ?_⟩
      cases hy : y.isNone with
      | true => exact .deleted rfl r1 hy (h4 ht.2).2
      | false => exact .node rfl r1 hy (h4 ht.2).2

theorem elts_up {n : Nat} {R : Val → Val → Prop} : ∀ (xs : List Val), (∀ x ∈ xs, UpAt E w b n R x) →
    ∀ s ys s', OkS w b s → visitElts (visit E n) xs s = some (.ok ys, s') →
      Frame s s' ∧ (TidyMacros E (fresh s s') → s'.world = w ∧ All2 R xs ys)
  | [], _, s, ys, s', hs, h => by
    have h' : (some (.ok [], s) : Option (Except Exc (List Val) × St υ)) = some (.ok ys, s') := h
    cases h'
    exact ⟨frame_refl _, fun _ => ⟨hs.world, .nil⟩⟩
  | x :: xs, hv, s, ys, s', hs, h => by
    obtain ⟨y, s1, h1, h⟩ := bind_ok (m := visit E n x) h
    obtain ⟨zs, s2, h2, h⟩ := bind_ok h
    have h' : (some (.ok (y :: zs), s2) : Option (Except Exc (List Val) × St υ)) = some (.ok ys, s') := h
    cases h'
    have f1 := visit_frame E n x h1
    have f2 : Frame s1 s' := visitElts_pres frame_rel.toStep (visit_pres frame_rel E.all_true n) xs _ _ _ h2
    refine ⟨f1.trans f2, fun ht => ?_⟩
    rw [tidyMacros_trans f1 f2] at ht
    obtain ⟨w1, r1⟩ := hv x (by simp) s y s1 hs h1 ht.1
    obtain ⟨-, h3⟩ := elts_up xs (fun z hz => hv z (by simp [hz])) s1 zs s' (hs.frame f1 w1) h2
    exact ⟨(h3 ht.2).1, .cons r1 (h3 ht.2).2⟩

/-! ### one application -/

/-- The state after an application. -/
def logged (s : St υ) (k : String) (i : Nat) (a : MArgs) : St υ := { s with log := s.log ++ [entry k i a s] }

theorem logged_frame (s : St υ) (k : String) (i : Nat) (a : MArgs) : Frame s (logged s k i a) :=
  ⟨rfl, rfl, rfl, _, rfl⟩

theorem logged_tidy {s : St υ} {k : String} {i : Nat} {a : MArgs} :
    TidyMacros E (fresh s (logged s k i a)) ↔ Plain E i a := by
  have : fresh s (logged s k i a) = [entry k i a s] := by simp [fresh, logged]
  rw [this]
  exact ⟨fun h => h (entry k i a s) (by simp), fun h e he => by rcases List.mem_singleton.mp he with rfl; exact h⟩

theorem gives_det {i : Nat} {a : MArgs} {v v' : Val} (h : Gives E i a v) (h' : Gives E i a v') : v = v' := by
  obtain ⟨r, h1, h2⟩ := h
  obtain ⟨r', h3, h4⟩ := h'
  rw [h1] at h3; cases h3
  rw [h2] at h4; exact Option.some.inj h4

theorem gives_shape {i : Nat} {a : MArgs} {v : Val} (h : Gives E i a v) : v = .none ∨ v.isTree = true := by
  obtain ⟨_, _, h⟩ := h; exact checkRet_shape h

theorem expand_gives {vis : Val → X υ Val} {k : String} {i : Nat} {a : MArgs} {s : St υ} {v : Val} (hh : s.hook = none)
    (hb : isbound s.world k = some i) (h : Gives E i a v) :
    expand E vis k a s = visitExpansion vis v a.invocation (logged s k i a) := by
  obtain ⟨r, h1, h2⟩ := h
  have : expandTry E vis k a s = some (.ok v, logged s k i a) := by
    unfold expandTry
    rw [run_get, hb]
    dsimp only
    have : applyMacro E vis i k a s = some (.ok r, logged s k i a) := by
      unfold applyMacro
      rw [run_get, run_bind (a := ()) (s' := logged s k i a) rfl,
        run_bind (a := r) (s' := logged s k i a) (by rw [h1]; rfl), run_get]
      have : (logged s k i a).hook = none := hh
      rw [this]
      rfl
    rw [run_bind this, h2]
    rfl
  unfold expand
  rw [run_bind (a := .ok v) (s' := logged s k i a) (by simp only [M.attempt]; rw [this])]

theorem expand_ok {vis : Val → X υ Val} {k : String} {i : Nat} {a : MArgs} {s s' : St υ} {r : Val}
    (hE : ∃ q, (E.macros i).fn a = .ret q) (hb : isbound s.world k = some i) (h : expand E vis k a s = some (.ok r, s')) : ∃ v, Gives E i a v := by
  unfold expand at h
  obtain ⟨r1, s1, h1, h⟩ := bind_ok h
  cases r1 with
  | error e => cases h
  | ok v =>
    have h1' : expandTry E vis k a s = some (.ok v, s1) := by
      simp only [M.attempt] at h1
      cases ht : expandTry E vis k a s with
      | none => rw [ht] at h1; cases h1
      | some p => rw [ht] at h1; obtain ⟨x, y⟩ := p; cases h1; rfl
    unfold expandTry at h1'
    rw [run_get, hb] at h1'
    obtain ⟨ret, s2, h2, h3⟩ := bind_ok h1'
    cases hc : checkRet ret with
    | none => rw [hc] at h3; cases h3
    | some v' =>
      refine ⟨v', ret, ?_, hc⟩
      unfold applyMacro at h2
      rw [run_get] at h2
      obtain ⟨_, s3, h4, h2⟩ := bind_ok h2
      obtain ⟨ret', s4, h5, h2⟩ := bind_ok h2
      obtain ⟨s5, h6, h7⟩ := bracket_some h5
      have hret' : (E.macros i).fn a = .ret ret' := by
        obtain ⟨q, hq⟩ := hE
        rw [hq] at h6 ⊢
        have h6' : (some (.ok q, _) : Option (Except Exc Ret × St υ)) = some (.ok ret', s5) := h6
        cases h6'; rfl
      have hrr : ret' = ret := by
        rw [run_get] at h2
        cases hh4 : s4.hook with
        | none =>
          rw [hh4] at h2
          have h' : (some (.ok ret', s4) : Option (Except Exc Ret × St υ)) = some (.ok ret, s2) := h2
          cases h'; rfl
        | some hk =>
          cases hh : s.hook with
          | none => rw [hh4, hh] at h2; cases h2
          | some hk' =>
            rw [hh4, hh] at h2
            obtain ⟨_, s6, _, h8⟩ := bind_ok (m := runNested vis (E.hooks hk a.invocation ret' k)) h2
            have h' : (some (.ok ret', s6) : Option (Except Exc Ret × St υ)) = some (.ok ret, s2) := h8
            cases h'; rfl
      rw [← hrr]; exact hret'

/-- The application is logged. -/
theorem expand_frame {n : Nat} {k : String} {i : Nat} {a : MArgs} {s s' : St υ} {r : Val} (hh : s.hook = none)
    (hb : isbound s.world k = some i) (h : expand E (visit E n) k a s = some (.ok r, s')) : Frame (logged s k i a) s' := by
  unfold expand at h
  obtain ⟨r1, s1, h1, h⟩ := bind_ok h
  cases r1 with
  | error e => cases h
  | ok v =>
    have h1' : expandTry E (visit E n) k a s = some (.ok v, s1) := by
      simp only [M.attempt] at h1
      cases ht : expandTry E (visit E n) k a s with
      | none => rw [ht] at h1; cases h1
      | some p => rw [ht] at h1; obtain ⟨x, y⟩ := p; cases h1; rfl
    have hlast : Frame s1 s' := visitExpansion_pres frame_rel.toStep (visit_pres frame_rel E.all_true n) v a.invocation s1 _ _ h
    refine Frame.trans ?_ hlast
    unfold expandTry at h1'
    rw [run_get, hb] at h1'
    obtain ⟨ret, s2, h2, h3⟩ := bind_ok h1'
    have h12 : s1 = s2 := by
      cases hc : checkRet ret with
      | none => rw [hc] at h3; cases h3
      | some v' => rw [hc] at h3; cases h3; rfl
    rw [h12]
    unfold applyMacro at h2
    rw [run_get] at h2
    obtain ⟨_, s3, h4, h2⟩ := bind_ok h2
    cases h4
    obtain ⟨ret', s4, h5, h2⟩ := bind_ok h2
    have f5 : Frame (logged s k i a) s4 := runNested_pres frame_rel (visit_pres frame_rel E.all_true n) _ (E.all_true.macros i a) _ _ _ h5
    have hh4 : s4.hook = none := f5.hook.trans hh
    rw [run_get, hh4] at h2
    have h' : (some (.ok ret', s4) : Option (Except Exc Ret × St υ)) = some (.ok ret, s2) := h2
    cases h'
    exact f5

theorem expand_plain {n : Nat} {k : String} {i : Nat} {a : MArgs} {s s' : St υ} {r : Val} (hh : s.hook = none)
    (hb : isbound s.world k = some i) (h : expand E (visit E n) k a s = some (.ok r, s')) (ht : TidyMacros E (fresh s s')) :
    Plain E i a := by
  rw [tidyMacros_trans (logged_frame s k i a) (expand_frame hh hb h)] at ht
  exact logged_tidy.mp ht.1

theorem visitExpansion_eq {vis : Val → X υ Val} {v t e : Val} {s : St υ} (h : Fixed v (locOf t) e) :
    visitExpansion vis v t s = if v.isNone = false ∧ s.recursive = true then vis e s else some (.ok e, s) := by
  unfold visitExpansion
  rcases h with ⟨h, rfl⟩ | ⟨h, e1, h1, h2⟩
  · rw [h]; rfl
  · rw [h, h1]
    simp only [Bool.false_eq_true, if_false]
    rw [run_bind (a := e1) (s' := s) rfl, h2, run_bind (a := e) (s' := s) rfl, run_get]
    cases s.recursive <;> rfl

theorem visitExpansion_fixed {vis : Val → X υ Val} {v t r : Val} {s s' : St υ}
    (h : visitExpansion vis v t s = some (.ok r, s')) : ∃ e, Fixed v (locOf t) e := by
  cases hv : v.isNone with
  | true => exact ⟨v, .inl ⟨hv, rfl⟩⟩
  | false =>
    unfold visitExpansion at h
    rw [hv] at h
    simp only [Bool.false_eq_true, if_false] at h
    obtain ⟨e1, s3, h4, h6⟩ := bind_ok h
    obtain ⟨h4', hs3⟩ := ofExcept_ok h4
    obtain ⟨e2, s4, h5, h7⟩ := bind_ok h6
    obtain ⟨h5', hs4⟩ := ofExcept_ok h5
    exact ⟨e2, .inr ⟨hv, e1, liftErr_ok h4', liftErr_ok h5'⟩⟩

/-- The expansion is the returned tree, up to locations and contexts. -/
theorem fixed_like {v l e} (hv : v = .none ∨ v.isTree = true) (h : Fixed v l e) :
    (v = .none ∧ e = .none) ∨ (v.isTree = true ∧ ∃ m, Like v m ∧ Like m e) := by
  rcases h with ⟨h, rfl⟩ | ⟨h, e1, h1, h2⟩
  · rcases hv with rfl | hv
    · exact .inl ⟨rfl, rfl⟩
    · cases e with
      | const c => cases hv
      | list | node => cases h
  · rcases hv with rfl | hv
    · cases h
    · have l1 := like_fixLocations hv h1
      exact .inr ⟨hv, e1, l1, like_fixCtx (l1.isTree hv) h2⟩

theorem fixed_isNone {v l e} (hv : v = .none ∨ v.isTree = true) (h : Fixed v l e) : e.isNone = v.isNone := by
  rcases fixed_like hv h with ⟨rfl, rfl⟩ | ⟨hv, m, h1, h2⟩
  · rfl
  · cases h1 with
    | const => cases hv
    | list => cases h2; rfl
    | node => cases h2; rfl

theorem isTree_isNone {v : Val} (h : v.isTree = true) : v.isNone = false := by
  cases v with
  | const => cases h
  | list | node => rfl

structure GoodExp (y : Syn) (e : Val) : Prop where
  shape : e = .none ∨ e.isTree = true
  tidy : Tidy e
  expr : y = .expr ∨ y = .name → e.isNone = true ∨ (e.isAST = true ∧ isMacroStmt e = false)

theorem like_isAST {t u : Val} (h : Like t u) : u.isAST = t.isAST := by cases h <;> rfl

theorem exp_good {i : Nat} {a : MArgs} {e : Val} (h : Exp E i a e) : GoodExp a.synt e := by
  obtain ⟨v, h1, h2, h3⟩ := h
  rcases fixed_like (gives_shape h1) h3 with ⟨rfl, rfl⟩ | ⟨hv, m, l1, l2⟩
  · exact ⟨.inl rfl, tidy_const _, fun _ => .inl rfl⟩
  · refine ⟨.inr (l2.isTree (l1.isTree hv)), tidy_like (tidy_like h2.tidy l1) l2, fun hy => ?_⟩
    rcases h2.expr hy with h | ⟨h, h'⟩
    · rw [isTree_isNone hv] at h; cases h
    · exact .inr ⟨by rw [like_isAST l2, like_isAST l1]; exact h, by rw [l2.isMacroStmt, l1.isMacroStmt]; exact h'⟩

theorem exp_det {i : Nat} {a : MArgs} {e e' : Val} (h : Exp E i a e) (h' : Exp E i a e') : e = e' := by
  obtain ⟨v, h1, _, h3⟩ := h
  obtain ⟨v', h1', _, h3'⟩ := h'
  cases gives_det h1 h1'
  rcases h3 with ⟨h, rfl⟩ | ⟨h, e1, h4, h5⟩
  · rcases h3' with ⟨h', rfl⟩ | ⟨h', _⟩
    · rfl
    · rw [h] at h'; cases h'
  · rcases h3' with ⟨h', rfl⟩ | ⟨h', e1', h4', h5'⟩
    · rw [h] at h'; cases h'
    · rw [h4] at h4'; cases h4'
      rw [h5] at h5'; exact Except.ok.inj h5'

/-- `expandIn`, for a macro that returns. -/
theorem expandIn_eq {k : String} {i : Nat} {a : MArgs} {s : St υ} {v e : Val} (hs : OkS w b s)
    (hb : isbound w k = some i) (hv : Gives E i a v) (hf : Fixed v (locOf a.invocation) e) :
    ∃ s1, (∀ n, expandIn E (visit E n) k a s =
        if e.isNone = false ∧ a.synt ≠ .name ∧ b = true then visit E n e s1 else some (.ok e, s1)) ∧
      Frame s s1 ∧ s1.world = w ∧
      (TidyMacros E (fresh s s1) ↔ Plain E i a) := by
  have hb' : isbound s.world k = some i := by rw [hs.world]; exact hb
  rw [fixed_isNone (gives_shape hv) hf]
  by_cases hy : a.synt = .name
  · refine ⟨{ logged { s with recursive := false } k i a with recursive := s.recursive }, fun n => ?_,
      ⟨rfl, rfl, rfl, _, rfl⟩, hs.world, ?_⟩
    · unfold expandIn
      rw [if_pos hy, if_neg (by simp [hy])]
      unfold withMode
      simp only [M.bracket]
      rw [expand_gives (s := { s with recursive := false }) hs.hook hb' hv, visitExpansion_eq hf,
        if_neg (by simp [logged])]
    · have : fresh s { logged { s with recursive := false } k i a with recursive := s.recursive } =
        [entry k i a { s with recursive := false }] := by simp [fresh, logged]
      rw [this]
      exact ⟨fun h => h (entry k i a { s with recursive := false }) (by simp),
        fun h e he => by rcases List.mem_singleton.mp he with rfl; exact h⟩
  · refine ⟨logged s k i a, fun n => ?_, logged_frame _ _ _ _, hs.world, logged_tidy⟩
    unfold expandIn
    rw [if_neg hy, expand_gives hs.hook hb' hv, visitExpansion_eq hf]
    have : (logged s k i a).recursive = b := hs.mode
    simp only [this, hy, ne_eq, not_false_eq_true, true_and]

theorem expandIn_ok {n : Nat} {k : String} {i : Nat} {a : MArgs} {s s' : St υ} {r : Val} (hs : OkS w b s)
    (hb : isbound w k = some i) (h : expandIn E (visit E n) k a s = some (.ok r, s'))
    (ht : TidyMacros E (fresh s s')) : ∃ v e, Gives E i a v ∧ Fixed v (locOf a.invocation) e := by
  have hb' : isbound s.world k = some i := by rw [hs.world]; exact hb
  unfold expandIn at h
  split at h
  · unfold withMode at h
    obtain ⟨s0, h1, h2⟩ := bracket_some h
    obtain ⟨v, hv⟩ := expand_ok (expand_plain (s := { s with recursive := false }) hs.hook hb' h1 (by rw [h2] at ht; exact ht)).returns
      (s := { s with recursive := false }) hb' h1
    rw [expand_gives (s := { s with recursive := false }) hs.hook hb' hv] at h1
    obtain ⟨e, he⟩ := visitExpansion_fixed h1
    exact ⟨v, e, hv, he⟩
  · obtain ⟨v, hv⟩ := expand_ok (expand_plain hs.hook hb' h ht).returns hb' h
    rw [expand_gives hs.hook hb' hv] at h
    obtain ⟨e, he⟩ := visitExpansion_fixed h
    exact ⟨v, e, hv, he⟩

def Same (e r : Val) : Prop := r = e

/-- What `visit` with fuel `n` computes. -/
def Rel (E : Env υ) (w : World υ) (b : Bool) (n : Nat) : Val → Val → Prop :=
  match b with
  | true => RD E w n
  | false => It E w Same n

/-- What is made of expansions. -/
def Aft (E : Env υ) (w : World υ) (b : Bool) (n : Nat) : Val → Val → Prop :=
  match b with
  | true => RD E w n
  | false => Same

theorem rel_step {n : Nat} {t r : Val} (h : Step E w (Aft E w b n) (Rel E w b n) t r) : Rel E w b (n + 1) t r := by
  cases b with
  | false => exact h
  | true => exact fx_iff.mpr (h.mono (fun _ _ h => h) fun _ _ h => rd_succ h)

theorem invokes_bound {t c : Val} {k : String} {i : Nat} {a : MArgs} (h : Invokes E w t k i a c) : isbound w k = some i := by
  cases h with
  | expr _ _ _ h4 _ => exact h4.2.1
  | block _ _ _ _ _ h6 _ => exact h6.2.1
  | decorator _ _ _ _ h5 => exact h5.2.1
  | name _ _ _ h4 _ => exact h4

theorem call_up {n : Nat} (ih : ∀ e, e.isTree = true → Tidy e → UpAt E w b n (Rel E w b n) e)
    {t c r : Val} {k : String} {i : Nat} {a : MArgs} {s s' : St υ} (hs : OkS w b s) (ht : Tidy t)
    (hi : Invokes E w t k i a c) (h : visitNode E (visit E n) t s = some (.ok r, s')) (htm : TidyMacros E (fresh s s')) :
    s'.world = w ∧ ¬ BadCall c ∧ ∃ e, Exp E i a e ∧ Finish E (Aft E w b n) t k a.synt c e r := by
  have hi' : Invokes E s.world t k i a c := by rw [hs.world]; exact hi
  have hbnd := invokes_bound hi
  obtain ⟨_, happ, hbad⟩ := visitNode_invokes (vis := visit E n) ht.1.1 hi'
  have hbc : ¬ BadCall c := by
    intro hbc
    rw [hbad hbc] at h; cases h
  have happ := happ hbc
  unfold Applies at happ
  have fr : Frame s s' := by
    have := visitNode_pres frame_rel.toStep (visit_pres frame_rel E.all_true n) (user_pres frame_rel (visit_pres frame_rel E.all_true n) E.all_true) t s _ _ h
    exact this
  rw [happ] at h
  obtain ⟨r0, s0, h0, h1⟩ := bind_ok h
  have f0 : Frame s0 s' := by
    generalize a.synt = y at h1
    cases y with
    | expr => cases h1; exact frame_refl _
    | block => obtain ⟨_, rfl⟩ := ofExcept_ok (x := insertCoverage E.filename k r0 (locOf t)) h1; exact frame_refl _
    | decorator => obtain ⟨_, rfl⟩ := ofExcept_ok (x := insertCoverage E.filename k r0 (locOf c)) h1; exact frame_refl _
    | name =>
      simp only [afterExpand] at h1
      split at h1
      · cases h1; exact frame_refl _
      · split at h1
        · cases h1; exact frame_refl _
        · rw [run_get] at h1
          split at h1
          · exact visit_frame E n _ h1
          · cases h1; exact frame_refl _
  have f00 : Frame s s0 := by
    have hp := expand_pres frame_rel.toStep (visit_pres frame_rel E.all_true n) (user_pres frame_rel (visit_pres frame_rel E.all_true n) E.all_true) k a
    unfold expandIn at h0
    split at h0
    · exact Pres.withMode frame_rel.toStep _ hp s _ _ h0
    · exact hp s _ _ h0
  obtain ⟨v, e, hv, hf⟩ := expandIn_ok hs hbnd h0 ((tidyMacros_trans f00 f0).mp htm).1
  obtain ⟨s1, heq, f1, w1, htd⟩ := expandIn_eq hs hbnd hv hf
  have hs1 := hs.frame f1 w1
  rw [heq] at h0
  have f10 : Frame s1 s0 := by
    split at h0
    · exact visit_frame E n e h0
    · cases h0; exact frame_refl _
  rw [tidyMacros_trans f1 (f10.trans f0), tidyMacros_trans f10 f0] at htm
  obtain ⟨t1, t2, t3⟩ := htm
  have hexp : Exp E i a e := ⟨v, hv, (htd.mp t1).tidy v hv, hf⟩
  have hge := exp_good hexp
  have hvis : ∀ {r s2 s3}, e.isNone = false → OkS w b s2 → visit E n e s2 = some (.ok r, s3) → TidyMacros E (fresh s2 s3) →
      s3.world = w ∧ Rel E w b n e r := by
    intro r s2 s3 hn hs2 hv ht3
    rcases hge.shape with rfl | htr
    · cases hn
    · exact ih e htr hge.tidy s2 r s3 hs2 hv ht3
  -- visited expansion, except for names
  have hmain : a.synt ≠ .name → s0.world = w ∧ ((e.isNone = true ∧ r0 = e) ∨ (e.isNone = false ∧ Aft E w b n e r0)) := by
    intro hy
    cases hn : e.isNone with
    | true =>
      rw [if_neg (by simp [hn])] at h0
      cases h0; exact ⟨w1, .inl ⟨rfl, rfl⟩⟩
    | false =>
      cases b with
      | false =>
        rw [if_neg (by simp)] at h0
        cases h0; exact ⟨w1, .inr ⟨rfl, rfl⟩⟩
      | true =>
        rw [if_pos ⟨hn, hy, rfl⟩] at h0
        obtain ⟨h2, h3⟩ := hvis hn hs1 h0 t2
        exact ⟨h2, .inr ⟨rfl, h3⟩⟩
  refine (fun hh => ⟨hh.1, hbc, e, hexp, hh.2⟩ : (s'.world = w ∧ Finish E (Aft E w b n) t k a.synt c e r) → _) ?_
  generalize a.synt = y at *
  cases y with
  | expr =>
    have h1' : (some (.ok (if r0.isNone then coverageExpr (locOf t) else r0), s0) : Option (Except Exc Val × St υ)) = some (.ok r, s') := h1
    cases h1'
    obtain ⟨hw0, hc⟩ := hmain (by simp)
    refine ⟨hw0, ?_⟩
    rcases hc with ⟨hn, rfl⟩ | ⟨hn, hA⟩
    · rw [if_pos hn]; exact .exprNone rfl hn
    · exact .expr rfl hn hA
  | block =>
    obtain ⟨h1', rfl⟩ := ofExcept_ok (x := insertCoverage E.filename k r0 (locOf t)) h1
    obtain ⟨hw0, hc⟩ := hmain (by simp)
    refine ⟨hw0, ?_⟩
    rcases hc with ⟨hn, rfl⟩ | ⟨hn, hA⟩
    · exact .stmtNone (.inl rfl) hn h1'
    · exact .stmt (.inl rfl) hn hA h1'
  | decorator =>
    obtain ⟨h1', rfl⟩ := ofExcept_ok (x := insertCoverage E.filename k r0 (locOf c)) h1
    obtain ⟨hw0, hc⟩ := hmain (by simp)
    refine ⟨hw0, ?_⟩
    rcases hc with ⟨hn, rfl⟩ | ⟨hn, hA⟩
    · exact .stmtNone (.inr rfl) hn h1'
    · exact .stmt (.inr rfl) hn hA h1'
  | name =>
    rw [if_neg (by simp)] at h0
    cases h0
    simp only [afterExpand] at h1
    cases hn : r0.isNone with
    | true =>
      rw [if_pos hn] at h1
      cases h1; exact ⟨w1, .nameNone rfl hn⟩
    | false =>
      rw [if_neg (by simp [hn])] at h1
      cases hsm : isSameName k r0 with
      | true =>
        rw [if_pos hsm] at h1
        cases h1; exact ⟨w1, .nameSame rfl hn hsm⟩
      | false =>
        rw [if_neg (by simp [hsm]), run_get, hs1.mode] at h1
        cases b with
        | false => cases h1; exact ⟨w1, .name rfl hn hsm rfl⟩
        | true =>
          obtain ⟨h2, h3⟩ := hvis hn hs1 h1 t3
          exact ⟨h2, .name rfl hn hsm h3⟩

theorem isAST_isTree {t : Val} (h : t.isAST = true) : t.isTree = true := by
  cases t <;> first | rfl | cases h

/-- A tree or nothing. -/
def T (t : Val) : Prop := t = .none ∨ t.isTree = true

theorem visit_up : ∀ n t, T t → Tidy t → UpAt E w b n (Rel E w b n) t := by
  intro n
  induction n with
  | zero => intro t _ _ s y s' _ h; cases h
  | succ n ih =>
    intro t hT ht s r s' hs h htm
    cases hc : (noBindings s.world || isDone t) with
    | true =>
      have h' : visitBody E (visit E n) t s = some (.ok r, s') := h
      unfold visitBody at h'
      rw [run_get, hc] at h'
      cases h'
      refine ⟨hs.world, rel_step (.same ?_)⟩
      rw [hs.world] at hc
      rcases (Bool.or_eq_true _ _).mp hc with h | h
      · exact .inl h
      · exact .inr (.inl h)
    | false =>
      have hc' := (Bool.or_eq_false_iff).mp hc
      rw [hs.world] at hc'
      rcases hT with rfl | hT
      · have h' : visitBody E (visit E n) .none s = some (.ok r, s') := h
        unfold visitBody at h'
        rw [run_get, hc] at h'
        cases h'
        exact ⟨hs.world, rel_step (.same (.inr (.inr rfl)))⟩
      · cases t with
        | const => cases hT
        | list xs =>
          have h' : visitBody E (visit E n) (.list xs) s = some (.ok r, s') := h
          unfold visitBody at h'
          rw [run_get, hc] at h'
          simp only [Bool.false_eq_true, if_false] at h'
          obtain ⟨ys, s1, h1, h2⟩ := bind_ok (m := visitElts (visit E n) xs) h'
          have h3 : (some (.ok (ofList (Markers.flattenV ys)), s1) : Option (Except Exc Val × St υ)) = some (.ok r, s') := h2
          cases h3
          obtain ⟨_, h4⟩ := elts_up xs (R := Rel E w b n) (fun x hx => ih x (.inr (isAST_isTree (List.all_eq_true.mp hT x hx))) (tidy_item ht hT hx)) s ys s' hs h1
          exact ⟨(h4 htm).1, rel_step (.list hc'.1 (h4 htm).2)⟩
        | node c l fs =>
          rw [visit_node rfl hc'.2 (by rw [hs.world]; exact hc'.1)] at h
          by_cases hi : Invocation E w (.node c l fs)
          · obtain ⟨k, i, a, d, hp⟩ := invocation_invOf ht.1 hi
            obtain ⟨h1, h2, e, h3, h4⟩ := call_up (fun e he => ih e (.inr he)) hs ht (invOf_spec hp) h htm
            exact ⟨h1, rel_step (.call hc'.1 hc'.2 hp h2 h3 h4)⟩
          · rw [visitNode_other ht.1.1 (by rw [hs.world]; exact hi)] at h
            cases hk : (Val.node c l fs).isK .Name with
            | true =>
              rw [if_pos hk] at h
              cases h
              exact ⟨hs.world, rel_step (.name hc'.1 hk hi)⟩
            | false =>
              rw [if_neg (by simp [hk])] at h
              obtain ⟨fs', s1, h1, h2⟩ := bind_ok (m := genericFields (visit E n) fs) h
              have h3 : (some (.ok (Val.node c l fs'), s1) : Option (Except Exc Val × St υ)) = some (.ok r, s') := h2
              cases h3
              obtain ⟨_, h4⟩ := fields_up c l fs (R := Rel E w b n) (fun x hx => ih x (.inr (isAST_isTree (childNodes_isAST hx))) (tidy_child ht hx)) s fs' s' hs h1
              refine ⟨(h4 htm).1, rel_step (.generic hc'.1 hc'.2 ?_ hi (h4 htm).2)⟩
              rintro rfl; cases hk

end Mcpyrate.Expander.Layers
