import Verif.Py.Walk
import Verif.Spec.Tree
/-
The walk as a total map plus a check that no node raises.
-/
namespace Mcpyrate.Py
variable {σ : Type}

mutual
def tmap (out : σ → Cls → Loc → Fields → Out σ) (s : σ) : Val → Val
  | .const c => .const c
  | .list xs => .list (tmapL out s xs)
  | .node c l fs => .node c (out s c l fs).loc (tmapF out (out s c l fs) fs ++ (out s c l fs).extra)
def tmapF (out : σ → Cls → Loc → Fields → Out σ) (o : Out σ) : List (F × Val) → List (F × Val)
  | [] => []
  | (f, .const c) :: r => (f, (o.leaf f (.const c)).getD (.const c)) :: tmapF out o r
  | (f, .node c l gs) :: r =>
    (f, (o.leaf f (.node c l gs)).getD (tmap out (o.child f) (.node c l gs))) :: tmapF out o r
  | (f, .list xs) :: r =>
    (f, (o.leaf f (.list xs)).getD (.list (tmapL out (o.child f) xs))) :: tmapF out o r
def tmapL (out : σ → Cls → Loc → Fields → Out σ) (s : σ) : List Val → List Val
  | [] => []
  | .node c l fs :: r => tmap out s (.node c l fs) :: tmapL out s r
  | .list xs :: r => .list xs :: tmapL out s r
  | .const c :: r => .const c :: tmapL out s r
end

variable (step : σ → Cls → Loc → Fields → Except Err (Out σ))
  (out : σ → Cls → Loc → Fields → Out σ)

/-- `out` is what `step` returns when it does not raise. -/
def Total : Prop := ∀ s c l fs o, step s c l fs = .ok o → o = out s c l fs

variable {step out}

theorem tmap_node_isAST (s : σ) (c : Cls) (l : Loc) (fs : Fields) :
    (tmap out s (.node c l fs)).isAST = true := by simp [tmap, Val.isAST]

theorem tmapL_isAST (s : σ) : ∀ xs : List Val, xs.all Val.isAST = true → (tmapL out s xs).all Val.isAST = true
  | [], _ => rfl
  | .node c l fs :: r, h => by
    simp only [List.all_cons, Bool.and_eq_true] at h
    rw [tmapL, List.all_cons, tmap_node_isAST, tmapL_isAST s r h.2]
    rfl
  | .list xs :: r, h => by simp [Val.isAST] at h
  | .const c :: r, h => by simp [Val.isAST] at h

theorem tmap_isTree (s : σ) (t : Val) (h : t.isTree = true) : (tmap out s t).isTree = true := by
  cases t with
  | node c l fs => simp [tmap, Val.isTree]
  | list xs =>
    rw [tmap, Val.isTree]
    exact tmapL_isAST s xs h
  | const c => cases h

mutual
theorem walk_tmap (ht : Total step out) (s : σ) (t t' : Val) (h : walk step s t = .ok t')
    (hn : t.isTree = true) : t' = tmap out s t := by
  match t with
  | .const _ => simp [walk] at h
  | .list xs =>
    simp only [walk] at h
    split at h
    · simp at h
    · rename_i ys hys
      simp only [Except.ok.injEq] at h
      subst h
      simp only [Val.isTree, List.all_eq_true] at hn
      rw [tmap, walkElts_tmap ht s xs ys hys hn]
  | .node c l fs =>
    simp only [walk] at h
    split at h
    · simp at h
    · rename_i o ho
      have := ht s c l fs o ho
      split at h
      · simp at h
      · rename_i fs' hfs
        simp only [Except.ok.injEq] at h
        subst h
        rw [tmap, ← this, walkF_tmap ht o fs fs' hfs]
termination_by structural t
theorem walkElts_tmap (ht : Total step out) (s : σ) (xs ys : List Val)
    (h : walkElts step s xs = .ok ys) (hn : ∀ x ∈ xs, x.isAST = true) : ys = tmapL out s xs := by
  match xs with
  | [] => simp only [walkElts, Except.ok.injEq] at h; simp [← h, tmapL]
  | .const _ :: r => have := hn _ List.mem_cons_self; simp [Val.isAST] at this
  | .list _ :: r => have := hn _ List.mem_cons_self; simp [Val.isAST] at this
  | .node c l fs :: r =>
    simp only [walkElts] at h
    split at h
    · simp at h
    · rename_i y hy
      split at h
      · simp at h
      · rename_i r' hr
        simp only [Except.ok.injEq] at h
        have h1 := walk_tmap ht s (.node c l fs) y hy rfl
        have h2 := walkElts_tmap ht s r r' hr (fun x hx => hn x (by simp [hx]))
        subst h
        rw [tmapL, h2, h1]
        simp [tmap]
termination_by structural xs
theorem walkF_tmap (ht : Total step out) (o : Out σ) (fs fs' : List (F × Val))
    (h : walkF step o fs = .ok fs') : fs' = tmapF out o fs := by
  match fs with
  | [] => simp only [walkF, Except.ok.injEq] at h; simp [← h, tmapF]
  | (f, .const c) :: r =>
    simp only [walkF] at h
    split at h
    · rename_i v' r' hv hr
      simp only [Except.ok.injEq] at h
      subst h
      rw [tmapF, walkF_tmap ht o r r' hr]
      cases hl : o.leaf f (.const c) <;> simp [hl, orLeaf] at hv <;> simp [hv]
    · simp at h
    · simp at h
  | (f, .node c l gs) :: r =>
    simp only [walkF] at h
    split at h
    · rename_i v' r' hv hr
      simp only [Except.ok.injEq] at h
      subst h
      rw [tmapF, walkF_tmap ht o r r' hr]
      cases hl : o.leaf f (.node c l gs) with
      | some w => simp [hl, orLeaf] at hv; simp [hv]
      | none =>
        simp only [hl, orLeaf] at hv
        simp [walk_tmap ht _ (.node c l gs) v' hv rfl]
    · simp at h
    · simp at h
  | (f, .list xs) :: r =>
    simp only [walkF] at h
    split at h
    · rename_i v' r' hv hr
      simp only [Except.ok.injEq] at h
      subst h
      rw [tmapF, walkF_tmap ht o r r' hr]
      cases hl : o.leaf f (.list xs) with
      | some w => simp [hl, orLeaf] at hv; simp [hv]
      | none =>
        simp only [hl, orLeaf] at hv
        cases hx : walkL step (o.child f) xs with
        | error e => simp [hx, Except.map] at hv
        | ok ys =>
          simp only [hx, Except.map, Except.ok.injEq] at hv
          simp [← hv, walkL_tmap ht _ xs ys hx]
    · simp at h
    · simp at h
termination_by structural fs
theorem walkL_tmap (ht : Total step out) (s : σ) (xs ys : List Val)
    (h : walkL step s xs = .ok ys) : ys = tmapL out s xs := by
  match xs with
  | [] => simp only [walkL, Except.ok.injEq] at h; simp [← h, tmapL]
  | .const _ :: r =>
    simp only [walkL] at h
    split at h
    · simp at h
    · rename_i r' hr
      simp only [Except.ok.injEq] at h
      rw [tmapL, ← h, walkL_tmap ht s r r' hr]
  | .list _ :: r =>
    simp only [walkL] at h
    split at h
    · simp at h
    · rename_i r' hr
      simp only [Except.ok.injEq] at h
      rw [tmapL, ← h, walkL_tmap ht s r r' hr]
  | .node c l fs :: r =>
    simp only [walkL] at h
    split at h
    · simp at h
    · rename_i y hy
      split at h
      · simp at h
      · rename_i r' hr
        simp only [Except.ok.injEq] at h
        rw [tmapL, ← h, walk_tmap ht s (.node c l fs) y hy rfl, walkL_tmap ht s r r' hr]
termination_by structural xs
end

/-! ### success -/

mutual
/-- The walk succeeds when no node in the tree makes `step` raise. -/
theorem walk_ok (s : σ) (t : Val) (hn : t.isTree = true)
    (h : ∀ s c l fs, Reach t (.node c l fs) → ∃ o, step s c l fs = .ok o) :
    ∃ t', walk step s t = .ok t' := by
  match t with
  | .const _ => simp [Val.isTree] at hn
  | .list xs =>
    simp only [Val.isTree, List.all_eq_true] at hn
    obtain ⟨ys, hys⟩ := walkElts_ok s xs hn
      (fun x hx s c l fs hr => h s c l fs (.step (.elt hx (hn x hx)) hr))
    exact ⟨_, by simp only [walk, hys]; rfl⟩
  | .node c l fs =>
    obtain ⟨o, ho⟩ := h s c l fs (.refl _)
    obtain ⟨fs', hfs⟩ := walkF_ok o c l fs fs (fun _ h => h) h
    exact ⟨_, by simp only [walk, ho, hfs]; rfl⟩
termination_by structural t
theorem walkElts_ok (s : σ) (xs : List Val) (hn : ∀ x ∈ xs, x.isAST = true)
    (h : ∀ x ∈ xs, ∀ s c l fs, Reach x (.node c l fs) → ∃ o, step s c l fs = .ok o) :
    ∃ ys, walkElts step s xs = .ok ys := by
  match xs with
  | [] => exact ⟨[], by simp [walkElts]⟩
  | x :: r =>
    have hx : x.isTree = true := by
      have := hn x List.mem_cons_self
      cases x <;> simp_all [Val.isAST, Val.isTree]
    obtain ⟨y, hy⟩ := walk_ok s x hx (h x List.mem_cons_self)
    obtain ⟨ys, hys⟩ := walkElts_ok s r (fun z hz => hn z (by simp [hz])) (fun z hz => h z (by simp [hz]))
    exact ⟨_, by simp only [walkElts, hy, hys]; rfl⟩
termination_by structural xs
theorem walkF_ok (o : Out σ) (c : Cls) (l : Loc) (all fs : List (F × Val))
    (hsub : ∀ q ∈ fs, q ∈ all)
    (h : ∀ s d m gs, Reach (.node c l all) (.node d m gs) → ∃ o, step s d m gs = .ok o) :
    ∃ fs', walkF step o fs = .ok fs' := by
  match fs with
  | [] => exact ⟨[], by simp [walkF]⟩
  | (f, .const k) :: r =>
    obtain ⟨r', hr⟩ := walkF_ok o c l all r (fun q hq => hsub q (by simp [hq])) h
    simp only [walkF, hr]
    cases o.leaf f (.const k) <;> exact ⟨_, rfl⟩
  | (f, .node d m gs) :: r =>
    obtain ⟨r', hr⟩ := walkF_ok o c l all r (fun q hq => hsub q (by simp [hq])) h
    have hmem : (f, Val.node d m gs) ∈ all := hsub _ List.mem_cons_self
    obtain ⟨y, hy⟩ := walk_ok (o.child f) (.node d m gs) rfl
      (fun s d m gs hre => h s d m gs (.step (.field (f := f) hmem rfl) hre))
    simp only [walkF, hr, hy]
    cases o.leaf f (.node d m gs) <;> exact ⟨_, rfl⟩
  | (f, .list xs) :: r =>
    obtain ⟨r', hr⟩ := walkF_ok o c l all r (fun q hq => hsub q (by simp [hq])) h
    have hmem : (f, Val.list xs) ∈ all := hsub _ List.mem_cons_self
    obtain ⟨ys, hys⟩ := walkL_ok (o.child f) xs
      (fun x hx ha s d m gs hre => h s d m gs (.step (.item (f := f) hmem hx ha) hre))
    simp only [walkF, hr, hys]
    cases o.leaf f (.list xs) <;> exact ⟨_, rfl⟩
termination_by structural fs
theorem walkL_ok (s : σ) (xs : List Val)
    (h : ∀ x ∈ xs, x.isAST = true →
      ∀ s d m gs, Reach x (.node d m gs) → ∃ o, step s d m gs = .ok o) :
    ∃ ys, walkL step s xs = .ok ys := by
  match xs with
  | [] => exact ⟨[], by simp [walkL]⟩
  | .const _ :: r =>
    obtain ⟨ys, hys⟩ := walkL_ok s r (fun z hz => h z (by simp [hz]))
    exact ⟨_, by simp only [walkL, hys]; rfl⟩
  | .list _ :: r =>
    obtain ⟨ys, hys⟩ := walkL_ok s r (fun z hz => h z (by simp [hz]))
    exact ⟨_, by simp only [walkL, hys]; rfl⟩
  | .node c l fs :: r =>
    obtain ⟨ys, hys⟩ := walkL_ok s r (fun z hz => h z (by simp [hz]))
    obtain ⟨y, hy⟩ := walk_ok s (.node c l fs) rfl (h _ List.mem_cons_self rfl)
    exact ⟨_, by simp only [walkL, hy, hys]; rfl⟩
termination_by structural xs
end

end Mcpyrate.Py
