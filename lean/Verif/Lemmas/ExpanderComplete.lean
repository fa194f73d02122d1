import Verif.Spec.Outermost
import Verif.Lemmas.LayersStep
import Verif.Lemmas.ExpanderEffect
/-
A visit that succeeds expands all outermost invocations.
-/
namespace Mcpyrate.Expander
open Py

variable {υ : Type} {E : Env υ} {w : World υ}

/-- From one state to a later one, at the same level, with the same bindings. -/
structure Goes (s s' : St υ) : Prop where
  frame : Frame s s'
  same : bindings s'.world = bindings s.world

theorem Goes.refl (s : St υ) : Goes s s := ⟨frame_refl s, rfl⟩
theorem Goes.trans {a b c : St υ} (h1 : Goes a b) (h2 : Goes b c) : Goes a c :=
  ⟨h1.frame.trans h2.frame, h2.same.trans h1.same⟩

/-- `x` was visited in between. -/
def Visited (vis : Val → X υ Val) (x : Val) (s s' : St υ) : Prop :=
  ∃ s1 y s2, Goes s s1 ∧ vis x s1 = some (.ok y, s2) ∧ Goes s2 s'

theorem Visited.mono {vis : Val → X υ Val} {x : Val} {a b c d : St υ} (h : Visited vis x b c) (h1 : Goes a b)
    (h2 : Goes c d) : Visited vis x a d := by
  obtain ⟨s1, y, s2, g1, g2, g3⟩ := h
  exact ⟨s1, y, s2, h1.trans g1, g2, g3.trans h2⟩

section
variable {vis : Val → X υ Val} (hv : ∀ x s r s', vis x s = some (r, s') → Goes s s')
include hv

theorem visitElts_visited (xs : List Val) (s s' : St υ) (ys : List Val) (h : visitElts vis xs s = some (.ok ys, s')) :
    Goes s s' ∧ ∀ x ∈ xs, Visited vis x s s' := by
  induction xs generalizing s ys with
  | nil =>
    have h' : (some (.ok [], s) : Option (Except Exc (List Val) × St υ)) = some (.ok ys, s') := h
    cases h'
    exact ⟨.refl _, fun x hx => by cases hx⟩
  | cons x xs ih =>
    obtain ⟨y, s1, h1, h⟩ := bind_ok (m := vis x) h
    obtain ⟨zs, s2, h2, h⟩ := bind_ok h
    have h' : (some (.ok (y :: zs), s2) : Option (Except Exc (List Val) × St υ)) = some (.ok ys, s') := h
    cases h'
    have g1 := hv _ _ _ _ h1
    obtain ⟨g2, h3⟩ := ih s1 zs h2
    refine ⟨g1.trans g2, fun z hz => ?_⟩
    rcases List.mem_cons.mp hz with rfl | hz
    · exact ⟨s, y, s1, .refl _, h1, g2⟩
    · exact (h3 z hz).mono g1 (.refl _)

theorem genericItems_visited (xs : List Val) (s s' : St υ) (ys : List Val)
    (h : genericItems vis xs s = some (.ok ys, s')) :
    Goes s s' ∧ ∀ x ∈ xs, x.isAST = true → Visited vis x s s' := by
  induction xs generalizing s ys with
  | nil =>
    have h' : (some (.ok [], s) : Option (Except Exc (List Val) × St υ)) = some (.ok ys, s') := h
    cases h'
    exact ⟨.refl _, fun x hx => by cases hx⟩
  | cons x xs ih =>
    unfold genericItems at h
    cases hx : x.isAST with
    | true =>
      rw [hx, if_pos rfl] at h
      obtain ⟨y, s1, h1, h⟩ := bind_ok h
      obtain ⟨zs, s2, h2, h⟩ := bind_ok h
      have h' : (some (.ok (Markers.spliceResult y ++ zs), s2) : Option (Except Exc (List Val) × St υ)) = some (.ok ys, s') := h
      cases h'
      have g1 := hv _ _ _ _ h1
      obtain ⟨g2, h3⟩ := ih s1 zs h2
      refine ⟨g1.trans g2, fun z hz hza => ?_⟩
      rcases List.mem_cons.mp hz with rfl | hz
      · exact ⟨s, y, s1, .refl _, h1, g2⟩
      · exact (h3 z hz hza).mono g1 (.refl _)
    | false =>
      rw [hx, if_neg (by simp)] at h
      obtain ⟨zs, s2, h2, h⟩ := bind_ok h
      have h' : (some (.ok (x :: zs), s2) : Option (Except Exc (List Val) × St υ)) = some (.ok ys, s') := h
      cases h'
      obtain ⟨g2, h3⟩ := ih s zs h2
      refine ⟨g2, fun z hz hza => ?_⟩
      rcases List.mem_cons.mp hz with rfl | hz
      · rw [hx] at hza; cases hza
      · exact h3 z hz hza

theorem genericFields_visited (c : Cls) (l : Loc) (fs : Fields) (s s' : St υ) (fs' : Fields)
    (h : genericFields vis fs s = some (.ok fs', s')) :
    Goes s s' ∧ ∀ x ∈ childNodes (.node c l fs), Visited vis x s s' := by
  induction fs generalizing s fs' with
  | nil =>
    have h' : (some (.ok [], s) : Option (Except Exc Fields × St υ)) = some (.ok fs', s') := h
    cases h'
    exact ⟨.refl _, fun x hx => by cases hx⟩
  | cons p fs ih =>
    obtain ⟨f, v⟩ := p
    have hsplit : ∀ x, x ∈ childNodes (.node c l ((f, v) :: fs)) →
        x ∈ childNodes (.node c l [(f, v)]) ∨ x ∈ childNodes (.node c l fs) := by
      intro x hx
      simp only [childNodes, List.flatMap_cons, List.flatMap_nil, List.append_nil, List.mem_append] at hx ⊢
      exact hx
    cases v with
    | const k =>
      obtain ⟨zs, s2, h2, h⟩ := bind_ok (m := genericFields vis fs) h
      have h' : (some (.ok ((f, Val.const k) :: zs), s2) : Option (Except Exc Fields × St υ)) = some (.ok fs', s') := h
      cases h'
      obtain ⟨g2, h3⟩ := ih s zs h2
      refine ⟨g2, fun x hx => ?_⟩
      rcases hsplit x hx with hx | hx
      · simp [childNodes] at hx
      · exact h3 x hx
    | list xs =>
      obtain ⟨ys, s1, h1, h⟩ := bind_ok (m := genericItems vis xs) h
      obtain ⟨zs, s2, h2, h⟩ := bind_ok h
      have h' : (some (.ok ((f, Val.list ys) :: zs), s2) : Option (Except Exc Fields × St υ)) = some (.ok fs', s') := h
      cases h'
      obtain ⟨g1, h4⟩ := genericItems_visited hv xs s s1 ys h1
      obtain ⟨g2, h3⟩ := ih s1 zs h2
      refine ⟨g1.trans g2, fun x hx => ?_⟩
      rcases hsplit x hx with hx | hx
      · simp only [childNodes, List.flatMap_cons, List.flatMap_nil, List.append_nil, List.mem_filter] at hx
        exact (h4 x hx.1 hx.2).mono (.refl _) g2
      · exact (h3 x hx).mono g1 (.refl _)
    | node c' l' gs =>
      obtain ⟨y, s1, h1, h⟩ := bind_ok (m := vis (.node c' l' gs)) h
      obtain ⟨zs, s2, h2, h⟩ := bind_ok h
      have h' : (some (.ok (if y.isNone then zs else (f, y) :: zs), s2) : Option (Except Exc Fields × St υ)) = some (.ok fs', s') := h
      cases h'
      have g1 := hv _ _ _ _ h1
      obtain ⟨g2, h3⟩ := ih s1 zs h2
      refine ⟨g1.trans g2, fun x hx => ?_⟩
      rcases hsplit x hx with hx | hx
      · simp only [childNodes, List.flatMap_cons, List.flatMap_nil, List.append_nil, List.mem_singleton] at hx
        subst hx
        exact ⟨s, y, s1, .refl _, h1, g2⟩
      · exact (h3 x hx).mono g1 (.refl _)

end

theorem Applied.mono {k : String} {id : Nat} {a : MArgs} {s0 s s' s1 : St υ} (h : Applied k id a s s') (h1 : Frame s0 s)
    (h2 : Frame s s') (h3 : Frame s' s1) : Applied k id a s0 s1 := by
  obtain ⟨e, he, hd, hr⟩ := h
  refine ⟨e, ?_, hd.trans h1.depth, hr⟩
  rw [fresh_trans (h1.trans h2) h3, fresh_trans h1 h2]
  simp [he]

theorem Outermost.open {t u : Val} (h : Outermost E w t u) : Open t u := by
  induction h with
  | refl t h => exact .refl t h
  | step h _ hc _ ih => exact .step h hc ih

theorem Invokes.invocation {t c : Val} {k : String} {id : Nat} {a : MArgs} (h : Invokes E w t k id a c) :
    Invocation E w t := by
  cases h with
  | expr h1 h2 h3 h4 => exact .expr h1 h2 ⟨_, _, _, h3, h4⟩
  | block h1 h2 _ h4 h5 h6 => exact .block h1 h2 (List.mem_append_right _ List.mem_cons_self) h4 ⟨_, _, _, h5, h6⟩
  | decorator h1 h2 _ h4 h5 => exact .decorator h1 h2 (List.mem_append_right _ List.mem_cons_self) ⟨_, _, _, h4, h5⟩
  | name h1 h2 h3 h4 h5 => exact .name h1 h2 h3 h4 h5

theorem visit_complete (hE : E.Keeps bindings) (n : Nat) : ∀ (t : Val) (s s' : St υ) (r : Val), t.isTree = true →
    Grammatical t → bindings s.world = bindings w → visit E n t s = some (.ok r, s') →
    ∀ u k id a c, Outermost E w t u → Invokes E w u k id a c → Applied k id a s s' := by
  induction n with
  | zero => intro t s s' r _ _ _ h; cases h
  | succ n ih =>
    intro t s s' r ht hg hb h u k id a c ho hi
    have hv : ∀ x s r s', visit E n x s = some (r, s') → Goes s s' := fun x s r s' h =>
      ⟨visit_frame E n x s r s' h, visit_keeps bindings_local hE n x s r s' h⟩
    change visitBody E (visit E n) t s = _ at h
    unfold visitBody at h
    rw [run_get] at h
    have hbound : isbound w k = some id := by
      cases hi with
      | expr _ _ _ h => exact h.2.1
      | block _ _ _ _ _ h => exact h.2.1
      | decorator _ _ _ _ h => exact h.2.1
      | name _ _ _ h => exact h
    have hnb : noBindings s.world = false := bound_noBindings ((bindings_isbound hb k).trans hbound)
    have hd : isDone t = false := by cases ho with
      | refl _ h => exact h
      | step h => exact h
    rw [hnb, hd] at h
    have ihc : ∀ x, x.isAST = true → x ∈ childNodes t → Visited (visit E n) x s s' → Outermost E w x u →
        Applied k id a s s' := by
      rintro x hxa hx ⟨s1, y, s2, g1, g2, g3⟩ hxo
      have := ih x s1 s2 y (by cases x <;> simp_all [Val.isAST, Val.isTree]) (hg.child hx) (g1.same.trans hb) g2 u k id a c
        hxo hi
      exact this.mono g1.frame (visit_frame E n _ _ _ _ g2) g3.frame
    cases t with
    | const => cases ht
    | list xs =>
      obtain ⟨ys, s1, h1, h2⟩ := bind_ok (m := visitElts (visit E n) xs) h
      have h2' : (some (.ok (if (Markers.flattenV ys).isEmpty then .none else .list (Markers.flattenV ys)), s1) :
          Option (Except Exc Val × St υ)) = some (.ok r, s') := h2
      cases h2'
      cases ho with
      | refl =>
        cases hi with
        | expr hk => cases hk
        | block hk => cases hk
        | decorator hk => rcases hk with hk | hk <;> cases hk
        | name hk => cases hk
      | step _ _ hc ho =>
        obtain ⟨hc1, hc2⟩ := List.mem_filter.mp hc
        exact ihc _ hc2 hc ((visitElts_visited hv xs s s' ys h1).2 _ hc1) ho
    | node c' l fs =>
      have h2 : visitNode E (visit E n) (.node c' l fs) s = some (.ok r, s') := h
      cases ho with
      | refl =>
        obtain ⟨hbo, happ, hbad⟩ := visitNode_invokes (vis := visit E n) hg.1 ((Layers.invokes_world hb).mpr hi)
        have hbc : ¬ BadCall c := by
          intro hbc
          rw [hbad hbc] at h2; cases h2
        obtain ⟨e, l, hl, h3, h4, h5, h6⟩ := applies_first (happ hbc) hbo h2
        exact ⟨e, by rw [hl]; exact List.mem_cons_self, h6, h3, h4, h5⟩
      | step _ hni hc ho =>
        rw [visitNode_other hg.1 (fun h => hni ((invocation_world hb).mp h))] at h2
        cases hk : (Val.node c' l fs).isK .Name with
        | true =>
          have hnest := hg.2 _ (.refl _)
          simp only [nestingOk, hk, Bool.not_true, Bool.false_or, Bool.and_eq_true] at hnest
          have hctx := List.all_eq_true.mp hnest.2 _ hc
          exact absurd hi.invocation (noInvocations_ctx hctx _ ho.open)
        | false =>
          rw [hk, if_neg (by simp)] at h2
          obtain ⟨fs', s1, h3, h4⟩ := bind_ok (m := genericFields (visit E n) fs) h2
          have h4' : (some (.ok (.node c' l fs'), s1) : Option (Except Exc Val × St υ)) = some (.ok r, s') := h4
          cases h4'
          exact ihc _ (childNodes_isAST hc) hc ((genericFields_visited hv c' l fs s s' fs' h3).2 _ hc) ho

end Mcpyrate.Expander
