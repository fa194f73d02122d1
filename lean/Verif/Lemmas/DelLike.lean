import Verif.Lemmas.Like
import Verif.Lemmas.ExpanderFixpoint
import Verif.Lemmas.Markers
/-
Deleting markers, and changes of locations and contexts.
-/
namespace Mcpyrate.Expander
open Py Markers

variable {p : Cls → Bool}

theorem LikeL.append' {a b c d : List Val} (h : LikeL a b) (h2 : LikeL c d) : LikeL (a ++ c) (b ++ d) := LikeL.append h2 h

theorem spliceResult_like {d d' : Val} (h : Like d d') : LikeL (spliceResult d) (spliceResult d') := by
  cases h with
  | const c => exact .refl _
  | list h => exact h
  | node h hc => exact .cons (.node h hc) .nil

theorem flatMap_like {xs ys : List Val} : LikeL xs ys → LikeL (xs.flatMap spliceResult) (ys.flatMap spliceResult)
  | .nil => .nil
  | .same h => by
    simp only [List.flatMap_cons]
    exact .append' (.refl _) (flatMap_like h)
  | .cons h h' => by
    simp only [List.flatMap_cons]
    exact .append' (spliceResult_like h) (flatMap_like h')

theorem delFields_names (fs gs : List (F × Val)) (h : delFields p fs = .ok gs) : gs.map (·.1) = fs.map (·.1) := by
  match fs with
  | [] => rw [delFields] at h; cases h; rfl
  | (f, .const c) :: r =>
    rw [delFields] at h
    split at h
    · cases h
    · rename_i r' hr
      cases h
      simp [delFields_names r r' hr]
  | (f, .list xs) :: r =>
    rw [delFields] at h
    split at h
    · cases h
    · split at h
      · cases h
      · rename_i r' hr
        cases h
        simp [delFields_names r r' hr]
  | (f, .node c l fs) :: r =>
    rw [delFields] at h
    split at h
    · cases h
    · rename_i v hv
      split at h
      · cases h
      · rename_i r' hr
        have n1 : v.isNone = false := isTree_not_none (del_clean p _ _ hv).1
        rw [n1] at h
        cases h
        simp [delFields_names r r' hr]

mutual
theorem del_like (hp : ∀ k, p (.py k) = false) (t u d : Val) (h : Like t u) (hd : del p t = .ok d) :
    ∃ d', del p u = .ok d' ∧ Like d d' := by
  match t with
  | .const _ => simp [del] at hd
  | .list xs =>
    obtain ⟨ys, rfl, hl⟩ := h.list_inv
    rw [del] at hd
    split at hd
    · cases hd
    · rename_i rs hr
      cases hd
      obtain ⟨rs', h1, h2⟩ := delElts_like hp xs ys rs hl hr
      refine ⟨.list (flattenV rs'), by rw [del, h1], .list ?_⟩
      rw [flattenV_trees fun r hm => (delElts_clean p _ _ hr r hm).1,
        flattenV_trees fun r hm => (delElts_clean p _ _ h1 r hm).1]
      exact flatMap_like h2
  | .node c l fs =>
    cases h with
    | @node _ _ l' _ fs' hF hctx =>
      rw [del] at hd
      by_cases hc : p c = true
      · rw [if_pos hc] at hd
        obtain ⟨d', h1, h2⟩ := delBody_like hp c fs fs' d hF hd
        exact ⟨d', by rw [del, if_pos hc, h1], h2⟩
      · rw [if_neg hc] at hd
        split at hd
        · cases hd
        · rename_i gs hg
          cases hd
          obtain ⟨gs', h1, h2⟩ := delFields_like hp c fs fs' gs hF hg
          have e := delFields_names fs gs hg
          have e' := delFields_names fs' gs' h1
          refine ⟨.node c l' gs', by rw [del, if_neg hc, h1], .node h2 fun hm => ?_⟩
          have e2 := hctx (by rw [← e]; exact hm)
          rw [← List.length_map (f := (·.1)) (as := gs'), e', ← List.length_map (f := (·.1)) (as := gs), e]
          simpa using e2
termination_by structural t
theorem delBody_like (hp : ∀ k, p (.py k) = false) (c : Cls) (fs fs' : List (F × Val)) (d : Val) (h : LikeF c fs fs')
    (hd : delBody p fs = .ok d) : ∃ d', delBody p fs' = .ok d' ∧ Like d d' := by
  match fs with
  | [] => simp [delBody] at hd
  | (f, v) :: r =>
    rw [delBody] at hd
    cases h with
    | field hv hr =>
      by_cases hf : f = .body
      · rw [if_pos hf] at hd
        obtain ⟨d', h1, h2⟩ := del_like hp v _ d hv hd
        exact ⟨d', by rw [delBody, if_pos hf, h1], h2⟩
      · rw [if_neg hf] at hd
        obtain ⟨d', h1, h2⟩ := delBody_like hp c r _ d hr hd
        exact ⟨d', by rw [delBody, if_neg hf, h1], h2⟩
    | ctx hc hs hr =>
      rw [if_neg (by decide)] at hd
      obtain ⟨d', h1, h2⟩ := delBody_like hp c r _ d hr hd
      exact ⟨d', by rw [delBody, if_neg (by decide), h1], h2⟩
termination_by structural fs
theorem delElts_like (hp : ∀ k, p (.py k) = false) (xs ys rs : List Val) (h : LikeL xs ys) (hd : delElts p xs = .ok rs) :
    ∃ rs', delElts p ys = .ok rs' ∧ LikeL rs rs' := by
  match xs with
  | [] => cases h; exact ⟨rs, hd, .refl _⟩
  | x :: xs =>
    have hxy : ∃ y ys', ys = y :: ys' ∧ Like x y ∧ LikeL xs ys' := by
      cases h with
      | same h => exact ⟨_, _, rfl, .refl _, h⟩
      | cons h h' => exact ⟨_, _, rfl, h, h'⟩
    obtain ⟨y, ys', rfl, hx, hl⟩ := hxy
    rw [delElts] at hd
    split at hd
    · cases hd
    · rename_i r hr
      split at hd
      · cases hd
      · rename_i rs0 hrs
        cases hd
        obtain ⟨r', h1, h2⟩ := del_like hp x y r hx hr
        obtain ⟨rs', h3, h4⟩ := delElts_like hp xs ys' rs0 hl hrs
        exact ⟨r' :: rs', by rw [delElts, h1, h3], .cons h2 h4⟩
termination_by structural xs
theorem delFields_like (hp : ∀ k, p (.py k) = false) (c : Cls) (fs fs' gs : List (F × Val)) (h : LikeF c fs fs')
    (hd : delFields p fs = .ok gs) : ∃ gs', delFields p fs' = .ok gs' ∧ LikeF c gs gs' := by
  match fs with
  | [] =>
    rw [delFields] at hd
    cases hd
    cases h with
    | nil => exact ⟨[], by rw [delFields], .nil⟩
    | extra hc hs =>
      refine ⟨[(.ctx, _)], ?_, .extra hc hs⟩
      simp [delFields, del, hp, Val.isNone]
  | (f, v) :: r =>
    have key : ∀ r', LikeF c r r' → ∀ gs0, delFields p r = .ok gs0 → ∃ gs', delFields p r' = .ok gs' ∧ LikeF c gs0 gs' :=
      fun r' hr gs0 hg => delFields_like hp c r r' gs0 hr hg
    cases h with
    | field hv hr =>
      match v with
      | .const k =>
        cases hv
        rw [delFields] at hd
        split at hd
        · cases hd
        · rename_i r0 h0
          cases hd
          obtain ⟨gs', h1, h2⟩ := key _ hr _ h0
          exact ⟨_, by rw [delFields, h1], .field (.const k) h2⟩
      | .list xs =>
        obtain ⟨ys, rfl, hl⟩ := hv.list_inv
        rw [delFields] at hd
        split at hd
        · cases hd
        · rename_i zs hz
          split at hd
          · cases hd
          · rename_i r0 h0
            cases hd
            obtain ⟨gs', h1, h2⟩ := key _ hr _ h0
            obtain ⟨zs', h3, h4⟩ := delItems_like hp xs ys zs hl hz
            exact ⟨_, by rw [delFields, h3, h1], .field (.list h4) h2⟩
      | .node c' l' gs0 =>
        rw [delFields] at hd
        split at hd
        · cases hd
        · rename_i v0 hv0
          split at hd
          · cases hd
          · rename_i r0 h0
            cases hd
            obtain ⟨gs', h1, h2⟩ := key _ hr _ h0
            obtain ⟨v0', h3, h4⟩ := del_like hp (.node c' l' gs0) _ v0 hv hv0
            have n1 : v0.isNone = false := isTree_not_none (del_clean p _ _ hv0).1
            cases hv with
            | node hF =>
              refine ⟨_, by rw [delFields, h3, h1], ?_⟩
              rw [h4.isNone, n1]
              exact .field h4 h2
    | ctx hc hs hr =>
      rename_i s r'
      have fin : ∀ v2 r0, delFields p r = .ok r0 →
          ∃ gs', delFields p ((.ctx, mk s []) :: r') = .ok gs' ∧ LikeF c ((.ctx, v2) :: r0) gs' := by
        intro v2 r0 h0
        obtain ⟨gs', h1, h2⟩ := key _ hr _ h0
        refine ⟨(.ctx, mk s []) :: gs', ?_, .ctx hc hs h2⟩
        simp [delFields, del, hp, Val.isNone, h1]
      match v with
      | .const k =>
        rw [delFields] at hd
        split at hd
        · cases hd
        · rename_i r0 h0
          cases hd; exact fin _ _ h0
      | .list xs =>
        rw [delFields] at hd
        split at hd
        · cases hd
        · split at hd
          · cases hd
          · rename_i r0 h0
            cases hd; exact fin _ _ h0
      | .node c' l' gs0 =>
        rw [delFields] at hd
        split at hd
        · cases hd
        · rename_i v0 hv0
          split at hd
          · cases hd
          · rename_i r0 h0
            cases hd
            have n1 : v0.isNone = false := isTree_not_none (del_clean p _ _ hv0).1
            rw [n1]
            exact fin _ _ h0
termination_by structural fs
theorem delItems_like (hp : ∀ k, p (.py k) = false) (xs ys rs : List Val) (h : LikeL xs ys) (hd : delItems p xs = .ok rs) :
    ∃ rs', delItems p ys = .ok rs' ∧ LikeL rs rs' := by
  match xs with
  | [] => cases h; exact ⟨rs, hd, .refl _⟩
  | x :: xs =>
    have hxy : ∃ y ys', ys = y :: ys' ∧ Like x y ∧ LikeL xs ys' ∧ (x.isAST = false → y = x ∨ ∃ a b, x = .list a ∧ y = .list b ∧ LikeL a b) := by
      cases h with
      | same h => exact ⟨_, _, rfl, .refl _, h, fun _ => .inl rfl⟩
      | cons h h' =>
        refine ⟨_, _, rfl, h, h', fun hx => ?_⟩
        cases h with
        | const => exact .inl rfl
        | list h => exact .inr ⟨_, _, rfl, rfl, h⟩
        | node => cases hx
    obtain ⟨y, ys', rfl, hx, hl, hna⟩ := hxy
    have key : ∀ r0, delItems p xs = .ok r0 → ∃ rs', delItems p ys' = .ok rs' ∧ LikeL r0 rs' :=
      fun r0 h0 => delItems_like hp xs ys' r0 hl h0
    match x with
    | .const k =>
      cases hx.const_inv
      rw [delItems] at hd
      split at hd
      · cases hd
      · rename_i r0 h0
        cases hd
        obtain ⟨rs', h1, h2⟩ := key _ h0
        exact ⟨_, by rw [delItems, h1], .same h2⟩
    | .list xs0 =>
      obtain ⟨ys0, rfl, hl0⟩ := hx.list_inv
      rw [delItems] at hd
      split at hd
      · cases hd
      · rename_i r0 h0
        cases hd
        obtain ⟨rs', h1, h2⟩ := key _ h0
        exact ⟨_, by rw [delItems, h1], .cons (.list hl0) h2⟩
    | .node c' l' gs0 =>
      rw [delItems] at hd
      split at hd
      · cases hd
      · rename_i v0 hv0
        split at hd
        · cases hd
        · rename_i r0 h0
          cases hd
          obtain ⟨rs', h1, h2⟩ := key _ h0
          obtain ⟨v0', h3, h4⟩ := del_like hp (.node c' l' gs0) _ v0 hx hv0
          cases hx with
          | node hF => exact ⟨_, by rw [delItems, h3, h1], .append' (spliceResult_like h4) h2⟩
termination_by structural xs
end

/-- Assigning to a field. -/
theorem delFields_setF {f : F} {x d : Val} (hx : x.isAST = true) (hd : del p x = .ok d) :
    ∀ fs : List (F × Val), delFields p fs = .ok fs → delFields p (setF fs f x) = .ok (setF fs f d) := by
  obtain ⟨c, l, gs, rfl⟩ := isAST_eq hx
  have hn : d.isNone = false := isTree_not_none (del_clean p _ _ hd).1
  intro fs
  induction fs with
  | nil => intro _; rfl
  | cons q fs ih =>
    obtain ⟨g, v⟩ := q
    intro h
    have hfs : delFields p fs = .ok fs ∧ (g ≠ f → ∀ r, delFields p ((g, v) :: fs) = .ok ((g, v) :: fs) → delFields p fs = .ok fs →
        ∀ r', delFields p r = .ok r' → delFields p ((g, v) :: r) = .ok ((g, v) :: r')) := by
      cases v with
      | const k =>
        rw [delFields] at h
        split at h
        · cases h
        · rename_i r0 h0
          cases h
          exact ⟨h0, fun _ r _ _ r' hr => by rw [delFields, hr]⟩
      | list xs =>
        rw [delFields] at h
        split at h
        · cases h
        · rename_i ys hy
          split at h
          · cases h
          · rename_i r0 h0
            cases h
            exact ⟨h0, fun _ r _ _ r' hr => by rw [delFields, hy, hr]⟩
      | node c' l' gs' =>
        rw [delFields] at h
        split at h
        · cases h
        · rename_i v0 hv0
          split at h
          · cases h
          · rename_i r0 h0
            have n1 : v0.isNone = false := isTree_not_none (del_clean p _ _ hv0).1
            rw [n1] at h
            cases h
            exact ⟨h0, fun _ r _ _ r' hr => by rw [delFields, hv0, hr]; simp [n1]⟩
    have ih := ih hfs.1
    by_cases hg : g = f
    · have e1 : setF ((g, v) :: fs) f (.node c l gs) = (g, .node c l gs) :: setF fs f (.node c l gs) := by simp [setF, hg]
      have e2 : setF ((g, v) :: fs) f d = (g, d) :: setF fs f d := by simp [setF, hg]
      rw [e1, e2, delFields, hd, ih]
      simp [hn]
    · have e1 : setF ((g, v) :: fs) f (.node c l gs) = (g, v) :: setF fs f (.node c l gs) := by simp [setF, hg]
      have e2 : setF ((g, v) :: fs) f d = (g, v) :: setF fs f d := by simp [setF, hg]
      rw [e1, e2]
      exact hfs.2 hg _ h hfs.1 _ ih

theorem Like.invocation' {υ : Type} {E : Env υ} {w : World υ} {t u : Val} (h : Like t u) (hi : Invocation E w u) :
    Invocation E w t := by
  cases hi with
  | expr hk hv hn =>
    obtain ⟨v', h1, h2⟩ := h.get' (by decide) hv
    exact .expr (by rw [← h.isK]; exact hk) h1 (h2.names.mp hn)
  | block hk hi him hic hn =>
    obtain ⟨v', h1, h2⟩ := h.get' (by decide) hi
    obtain ⟨ys, rfl, h3⟩ := h2.list_inv'
    obtain ⟨y, h4, h5⟩ := h3.mem him
    obtain ⟨c', h6, h7⟩ := h5.get' (by decide) hic
    exact .block (by rw [← h.isK]; exact hk) h1 h4 h6 (h7.names.mp hn)
  | decorator hk hi him hn =>
    obtain ⟨v', h1, h2⟩ := h.get' (by decide) hi
    obtain ⟨ys, rfl, h3⟩ := h2.list_inv'
    obtain ⟨y, h4, h5⟩ := h3.mem him
    exact .decorator (by rw [← h.isK, ← h.isK]; exact hk) h1 h4 (h5.names.mp hn)
  | name h1 h2 h3 h4 h5 =>
    obtain ⟨v', h6, h7⟩ := h.get' (by decide) h2
    cases h7.const_inv'
    exact .name (by rw [← h.isK]; exact h1) h6 h3 h4 h5

theorem NoInvocations.like {υ : Type} {E : Env υ} {w : World υ} {t u : Val} (h : Like t u) (ht : NoInvocations E w t) :
    NoInvocations E w u := by
  intro v hv
  induction hv generalizing t with
  | refl u hd => exact fun hi => ht t (.refl t (by rw [← h.isDone]; exact hd)) (h.invocation' hi)
  | step hd hm ho ih =>
    have hd' : isDone t = false := by rw [← h.isDone]; exact hd
    rcases h.child hm with ⟨x, hx, hxy⟩ | ⟨s, hs, rfl⟩
    · exact ih hxy (ht.child hd' hx)
    · refine ih (t := mk s []) (.refl _) fun z hz => ?_
      cases hz with
      | refl =>
        intro hi
        have hno : ∀ f, (mk s []).get? f = none := fun f => rfl
        cases hi with
        | expr _ h => rw [hno] at h; cases h
        | block _ h => rw [hno] at h; cases h
        | decorator _ h => rw [hno] at h; cases h
        | name _ h => rw [hno] at h; cases h
      | step _ hm => cases hm

end Mcpyrate.Expander
