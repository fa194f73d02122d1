import Verif.Spec.Tree
namespace Mcpyrate.Py

theorem Reach.trans {a b c : Val} (h1 : Reach a b) (h2 : Reach b c) : Reach a c := by
  induction h1 with
  | refl => exact h2
  | step hc _ ih => exact .step hc (ih h2)

theorem Child.isAST {t s : Val} (h : Child t s) : s.isAST = true := by cases h <;> assumption

theorem preorder_list (xs : List Val) : preorder (.list xs) = preorderL xs := by simp [preorder]

theorem mem_preorderL {xs : List Val} {s : Val} :
    s ∈ preorderL xs ↔ ∃ x ∈ xs, x.isAST = true ∧ s ∈ preorder x := by
  induction xs with
  | nil => simp [preorderL]
  | cons x xs ih =>
    cases x with
    | const c => simp [preorderL, ih, Val.isAST]
    | list ys => simp [preorderL, ih, Val.isAST]
    | node c l fs => simp [preorderL, ih, Val.isAST]

theorem mem_preorderF {fs : List (F × Val)} {s : Val} :
    s ∈ preorderF fs ↔ ∃ p ∈ fs, s ∈ preorder p.2 := by
  induction fs with
  | nil => simp [preorderF]
  | cons x xs ih => simp [preorderF, ih]

theorem mem_preorder_of_child {t u s : Val} (hc : Child t u) (hs : s ∈ preorder u) :
    s ∈ preorder t := by
  cases hc with
  | field hm ha =>
    simp only [preorder, List.mem_cons]
    right
    exact mem_preorderF.2 ⟨_, hm, hs⟩
  | item hm hx ha =>
    simp only [preorder, List.mem_cons]
    right
    exact mem_preorderF.2 ⟨_, hm, by simpa [preorder] using mem_preorderL.2 ⟨_, hx, ha, hs⟩⟩
  | elt hx ha =>
    simp only [preorder]
    exact mem_preorderL.2 ⟨_, hx, ha, hs⟩

theorem mem_preorder_self {t : Val} (h : t.isAST = true) : t ∈ preorder t := by
  cases t <;> simp [Val.isAST] at h
  simp [preorder]

theorem reach_mem_preorder {t s : Val} (h : Reach t s) (hs : s.isAST = true) : s ∈ preorder t := by
  induction h with
  | refl t => exact mem_preorder_self hs
  | step hc _ ih => exact mem_preorder_of_child hc (ih hs)

mutual
theorem preorder_reach (t s : Val) (h : s ∈ preorder t) : Reach t s ∧ s.isAST = true := by
  match t with
  | .const _ => simp [preorder] at h
  | .list xs =>
    simp only [preorder] at h
    obtain ⟨x, hx, hr, ha⟩ := preorderL_reach xs s h
    exact ⟨.step (.elt hx.1 hx.2) hr, ha⟩
  | .node c l fs =>
    simp only [preorder, List.mem_cons] at h
    rcases h with rfl | h
    · exact ⟨.refl _, rfl⟩
    · obtain ⟨u, hc, hr, ha⟩ := preorderF_reach c l fs fs (fun _ h => h) s h
      exact ⟨.step hc hr, ha⟩
theorem preorderF_reach (c : Cls) (l : Loc) (all fs : List (F × Val)) (hsub : ∀ p ∈ fs, p ∈ all)
    (s : Val) (h : s ∈ preorderF fs) :
    ∃ u, Child (.node c l all) u ∧ Reach u s ∧ s.isAST = true := by
  match fs with
  | [] => simp [preorderF] at h
  | (f, v) :: r =>
    simp only [preorderF, List.mem_append] at h
    rcases h with h | h
    · match v with
      | .const _ => simp [preorder] at h
      | .node d m gs =>
        have := preorder_reach (.node d m gs) s h
        exact ⟨.node d m gs, .field (hsub _ List.mem_cons_self) rfl, this⟩
      | .list xs =>
        simp only [preorder] at h
        obtain ⟨x, hx, hr, ha⟩ := preorderL_reach xs s h
        exact ⟨x, .item (hsub _ List.mem_cons_self) hx.1 hx.2, hr, ha⟩
    · exact preorderF_reach c l all r (fun p hp => hsub p (by simp [hp])) s h
theorem preorderL_reach (xs : List Val) (s : Val) (h : s ∈ preorderL xs) :
    ∃ x, (x ∈ xs ∧ x.isAST = true) ∧ Reach x s ∧ s.isAST = true := by
  match xs with
  | [] => simp [preorderL] at h
  | .const _ :: r =>
    simp only [preorderL] at h
    obtain ⟨x, hx, h⟩ := preorderL_reach r s h
    exact ⟨x, ⟨by simp [hx.1], hx.2⟩, h⟩
  | .list _ :: r =>
    simp only [preorderL] at h
    obtain ⟨x, hx, h⟩ := preorderL_reach r s h
    exact ⟨x, ⟨by simp [hx.1], hx.2⟩, h⟩
  | .node c l fs :: r =>
    simp only [preorderL, List.mem_append] at h
    rcases h with h | h
    · exact ⟨_, ⟨by simp, rfl⟩, preorder_reach (.node c l fs) s h⟩
    · obtain ⟨x, hx, h⟩ := preorderL_reach r s h
      exact ⟨x, ⟨by simp [hx.1], hx.2⟩, h⟩
end

theorem mem_preorder {t s : Val} : s ∈ preorder t ↔ Reach t s ∧ s.isAST = true :=
  ⟨preorder_reach t s, fun h => reach_mem_preorder h.1 h.2⟩

end Mcpyrate.Py
