import Verif.Spec.Quotes
namespace Mcpyrate.Quotes
open Py

theorem markedL_append (xs ys : List Obj) : markedL (xs ++ ys) = (markedL xs || markedL ys) := by
  induction xs with
  | nil => simp [markedL]
  | cons x xs ih => simp [markedL, ih, Bool.or_assoc]

/-! ### What has no list unquote stays as it is -/

mutual
theorem filled_self (x : Obj) (h : marked x = false) : filled x = some x := by
  match x with
  | .list xs =>
    simp only [marked] at h
    simp only [filled, filledL_self xs h, Option.map_some]
  | .node c l fs =>
    simp only [marked, Bool.or_eq_false_iff, decide_eq_false_iff_not] at h
    simp only [filled, if_neg h.1, filledF_self fs h.2, Option.map_some]
  | .const _ | .tuple _ | .set _ | .dict .. | .ref _ | .ext _ => rfl
termination_by structural x
theorem filledL_self (xs : List Obj) (h : markedL xs = false) : filledL xs = some xs := by
  match xs with
  | [] => rfl
  | x :: xs =>
    simp only [markedL, Bool.or_eq_false_iff] at h
    simp only [filledL, filledItem_self x h.1, filledL_self xs h.2, List.cons_append, List.nil_append]
termination_by structural xs
theorem filledItem_self (x : Obj) (h : marked x = false) : filledItem x = some [x] := by
  match x with
  | .list xs =>
    simp only [marked] at h
    simp only [filledItem, filledL_self xs h, Option.map_some]
  | .node c l fs =>
    simp only [marked, Bool.or_eq_false_iff, decide_eq_false_iff_not] at h
    simp only [filledItem, if_neg h.1, filledF_self fs h.2, Option.map_some]
  | .const _ | .tuple _ | .set _ | .dict .. | .ref _ | .ext _ => rfl
termination_by structural x
theorem filledF_self (fs : List (F × Obj)) (h : markedF fs = false) : filledF fs = some fs := by
  match fs with
  | [] => rfl
  | (f, x) :: r =>
    simp only [markedF, Bool.or_eq_false_iff] at h
    simp only [filledF, filled_self x h.1, filledF_self r h.2]
termination_by structural fs
end

/-! ### The check for remaining markers -/

theorem isList_cases (x : Obj) : (∃ xs, x = .list xs) ∨ isList x = false := by
  cases x <;> first | exact .inl ⟨_, rfl⟩ | exact .inr rfl

mutual
theorem hasSplice_eq (x : Obj) (h : flat x = true) (hl : isList x = false) : hasSplice x = marked x := by
  match x with
  | .list xs => cases hl
  | .node c l fs =>
    simp only [flat] at h
    simp only [hasSplice, marked, hasSpliceF_eq fs h]
  | .const _ | .tuple _ | .set _ | .dict .. | .ref _ | .ext _ => rfl
termination_by structural x
theorem hasSpliceF_eq (fs : List (F × Obj)) (h : flatF fs = true) : hasSpliceF fs = markedF fs := by
  match fs with
  | [] => rfl
  | (f, .list xs) :: r =>
    simp only [flatF, flat, Bool.and_eq_true] at h
    simp only [hasSpliceF, markedF, marked, hasSpliceL_eq xs h.1, hasSpliceF_eq r h.2]
  | (f, .node c l gs) :: r =>
    simp only [flatF, Bool.and_eq_true] at h
    simp only [hasSpliceF, markedF, hasSplice_eq (.node c l gs) h.1 rfl, hasSpliceF_eq r h.2]
  | (f, .const _) :: r | (f, .tuple _) :: r | (f, .set _) :: r | (f, .dict ..) :: r | (f, .ref _) :: r
  | (f, .ext _) :: r =>
    simp only [flatF, Bool.and_eq_true] at h
    simp only [hasSpliceF, markedF, hasSplice, marked, hasSpliceF_eq r h.2]
termination_by structural fs
theorem hasSpliceL_eq (xs : List Obj) (h : flatL xs = true) : hasSpliceL xs = markedL xs := by
  match xs with
  | [] => rfl
  | x :: xs =>
    simp only [flatL, Bool.and_eq_true, Bool.not_eq_true'] at h
    simp only [hasSpliceL, markedL, hasSplice_eq x h.1.2 h.1.1, hasSpliceL_eq xs h.2]
termination_by structural xs
end

theorem hasSpliceTopL_eq (xs : List Obj) (h : flatL xs = true) : hasSpliceTopL xs = markedL xs := by
  induction xs with
  | nil => rfl
  | cons x xs ih =>
    simp only [flatL, Bool.and_eq_true, Bool.not_eq_true'] at h
    have : hasSpliceTop x = hasSplice x := by cases x <;> first | rfl | cases h.1.1
    simp only [hasSpliceTopL, markedL, this, hasSplice_eq x h.1.2 h.1.1, ih h.2]

theorem hasSpliceTop_eq (x : Obj) (h : flat x = true) : hasSpliceTop x = marked x := by
  rcases isList_cases x with ⟨xs, rfl⟩ | hl
  · simp only [hasSpliceTop, marked]
    exact hasSpliceTopL_eq xs h
  · have : hasSpliceTop x = hasSplice x := by cases x <;> first | rfl | cases hl
    rw [this, hasSplice_eq x h hl]

/-! ### Splicing keeps trees flat -/

theorem flatL_append {xs ys : List Obj} (hx : flatL xs = true) (hy : flatL ys = true) : flatL (xs ++ ys) = true := by
  induction xs with
  | nil => exact hy
  | cons x xs ih =>
    simp only [flatL, Bool.and_eq_true] at hx
    simp only [List.cons_append, flatL, Bool.and_eq_true]
    exact ⟨hx.1, ih hx.2⟩

mutual
theorem splice_flat (x y : Obj) (h : flat x = true) (e : splice x = .ok y) : flat y = true := by
  match x with
  | .list xs =>
    simp only [splice] at e
    cases e1 : spliceL xs with
    | error _ => rw [e1] at e; cases e
    | ok ys => rw [e1] at e; cases e; exact spliceL_flat xs ys h e1
  | .node c l fs =>
    simp only [splice] at e
    split at e
    · cases e; exact h
    · cases e1 : spliceF fs with
      | error _ => rw [e1] at e; cases e
      | ok gs => rw [e1] at e; cases e; exact spliceF_flat fs gs h e1
  | .const _ | .tuple _ | .set _ | .dict .. | .ref _ | .ext _ => simp [splice] at e
termination_by structural x
theorem spliceL_flat (xs ys : List Obj) (h : flatL xs = true) (e : spliceL xs = .ok ys) : flatL ys = true := by
  match xs with
  | [] => cases e; rfl
  | x :: xs =>
    simp only [flatL, Bool.and_eq_true, Bool.not_eq_true'] at h
    simp only [spliceL] at e
    cases e1 : spliceItem x with
    | error _ => rw [e1] at e; cases e
    | ok as =>
      rw [e1] at e
      simp only at e
      cases e2 : spliceL xs with
      | error _ => rw [e2] at e; cases e
      | ok bs =>
        rw [e2] at e; cases e
        exact flatL_append (spliceItem_flat x as h.1.2 h.1.1 e1) (spliceL_flat xs bs h.2 e2)
termination_by structural xs
theorem spliceItem_flat (x : Obj) (ys : List Obj) (h : flat x = true) (hl : isList x = false)
    (e : spliceItem x = .ok ys) : flatL ys = true := by
  match x with
  | .list xs => cases hl
  | .node c l fs =>
    simp only [spliceItem] at e
    split at e
    · exact spliceBody_flat fs ys h e
    · split at e
      · cases e; simp only [flatL, isList, Bool.not_false, Bool.true_and, Bool.and_true]; exact h
      · cases e1 : spliceF fs with
        | error _ => rw [e1] at e; cases e
        | ok gs =>
          rw [e1] at e; cases e
          simp only [flatL, isList, Bool.not_false, Bool.true_and, Bool.and_true]
          exact spliceF_flat fs gs h e1
  | .const _ | .tuple _ | .set _ | .dict .. | .ref _ | .ext _ => simp [spliceItem] at e
termination_by structural x
theorem spliceBody_flat (fs : List (F × Obj)) (ys : List Obj) (h : flatF fs = true) (e : spliceBody fs = .ok ys) :
    flatL ys = true := by
  match fs with
  | [] => cases e
  | (f, x) :: r =>
    simp only [flatF, Bool.and_eq_true] at h
    simp only [spliceBody] at e
    by_cases hf : f = .body
    · rw [if_pos hf] at e
      match x with
      | .list xs => exact spliceL_flat xs ys h.1 e
      | .const _ | .tuple _ | .set _ | .dict .. | .ref _ | .ext _ | .node .. => cases e
    · rw [if_neg hf] at e
      exact spliceBody_flat r ys h.2 e
termination_by structural fs
theorem spliceF_flat (fs gs : List (F × Obj)) (h : flatF fs = true) (e : spliceF fs = .ok gs) : flatF gs = true := by
  match fs with
  | [] => cases e; rfl
  | (f, .list xs) :: r =>
    simp only [flatF, Bool.and_eq_true] at h
    simp only [spliceF, spliceField] at e
    cases e1 : spliceL xs with
    | error _ => rw [e1] at e; cases e
    | ok ys =>
      rw [e1] at e
      simp only at e
      cases e2 : spliceF r with
      | error _ => rw [e2] at e; cases e
      | ok r' =>
        rw [e2] at e; cases e
        simp only [flatF, Bool.and_eq_true]
        exact ⟨spliceL_flat xs ys h.1 e1, spliceF_flat r r' h.2 e2⟩
  | (f, .const _) :: r | (f, .tuple _) :: r | (f, .set _) :: r | (f, .dict ..) :: r | (f, .ref _) :: r
  | (f, .ext _) :: r | (f, .node ..) :: r =>
    simp only [flatF, Bool.and_eq_true] at h
    simp only [spliceF, spliceField] at e
    cases e2 : spliceF r with
    | error _ => rw [e2] at e; cases e
    | ok r' =>
      rw [e2] at e; cases e
      simp only [flatF, Bool.and_eq_true]
      exact ⟨h.1, spliceF_flat r r' h.2 e2⟩
termination_by structural fs
end

/-! ### The result of splicing -/

mutual
theorem splice_filled (x y : Obj) (e : splice x = .ok y) (hm : marked y = false) :
    filled x = some y ∧ reached x = true := by
  match x with
  | .list xs =>
    simp only [splice] at e
    cases e1 : spliceL xs with
    | error _ => rw [e1] at e; cases e
    | ok ys =>
      rw [e1] at e; cases e
      have := spliceL_filled xs ys e1 (by simpa [marked] using hm)
      simp [filled, reached, this]
  | .node c l fs =>
    simp only [splice] at e
    split at e
    · rename_i hg
      cases e
      have h := hm
      simp only [marked, Bool.or_eq_false_iff, decide_eq_false_iff_not] at h
      exact ⟨filled_self _ hm, by simp [reached, h.1, hg, h.2]⟩
    · rename_i hg
      cases e1 : spliceF fs with
      | error _ => rw [e1] at e; cases e
      | ok gs =>
        rw [e1] at e; cases e
        simp only [marked, Bool.or_eq_false_iff, decide_eq_false_iff_not] at hm
        have := spliceF_filled fs gs e1 hm.2
        simp [filled, reached, this, hm.1, hg]
  | .const _ | .tuple _ | .set _ | .dict .. | .ref _ | .ext _ => simp [splice] at e
termination_by structural x
theorem spliceL_filled (xs ys : List Obj) (e : spliceL xs = .ok ys) (hm : markedL ys = false) :
    filledL xs = some ys ∧ reachedL xs = true := by
  match xs with
  | [] => cases e; exact ⟨rfl, rfl⟩
  | x :: xs =>
    simp only [spliceL] at e
    cases e1 : spliceItem x with
    | error _ => rw [e1] at e; cases e
    | ok as =>
      rw [e1] at e
      simp only at e
      cases e2 : spliceL xs with
      | error _ => rw [e2] at e; cases e
      | ok bs =>
        rw [e2] at e; cases e
        rw [markedL_append, Bool.or_eq_false_iff] at hm
        have h1 := spliceItem_filled x as e1 hm.1
        have h2 := spliceL_filled xs bs e2 hm.2
        simp [filledL, reachedL, h1, h2]
termination_by structural xs
theorem spliceItem_filled (x : Obj) (ys : List Obj) (e : spliceItem x = .ok ys) (hm : markedL ys = false) :
    filledItem x = some ys ∧ reachedItem x = true := by
  match x with
  | .list xs =>
    simp only [spliceItem] at e
    cases e1 : spliceL xs with
    | error _ => rw [e1] at e; cases e
    | ok ys =>
      rw [e1] at e; cases e
      have := spliceL_filled xs ys e1 (by simpa [markedL, marked] using hm)
      simp [filledItem, reachedItem, this]
  | .node c l fs =>
    simp only [spliceItem] at e
    split at e
    · rename_i hc
      have := spliceBody_filled fs ys e hm
      simp [filledItem, reachedItem, hc, this]
    · rename_i hc
      split at e
      · rename_i hg
        cases e
        simp only [markedL, Bool.or_false] at hm
        have h := hm
        simp only [marked, Bool.or_eq_false_iff, decide_eq_false_iff_not] at h
        exact ⟨filledItem_self _ hm, by simp [reachedItem, hc, hg, h.2]⟩
      · rename_i hg
        cases e1 : spliceF fs with
        | error _ => rw [e1] at e; cases e
        | ok gs =>
          rw [e1] at e; cases e
          simp only [markedL, marked, Bool.or_false, Bool.or_eq_false_iff, decide_eq_false_iff_not] at hm
          have := spliceF_filled fs gs e1 hm.2
          simp [filledItem, reachedItem, this, hc, hg]
  | .const _ | .tuple _ | .set _ | .dict .. | .ref _ | .ext _ => simp [spliceItem] at e
termination_by structural x
theorem spliceBody_filled (fs : List (F × Obj)) (ys : List Obj) (e : spliceBody fs = .ok ys)
    (hm : markedL ys = false) : filledBody fs = some ys ∧ reachedBody fs = true := by
  match fs with
  | [] => cases e
  | (f, x) :: r =>
    simp only [spliceBody] at e
    simp only [filledBody, reachedBody]
    by_cases hf : f = .body
    · rw [if_pos hf] at e
      simp only [if_pos hf]
      match x with
      | .list xs => exact spliceL_filled xs ys e hm
      | .const _ | .tuple _ | .set _ | .dict .. | .ref _ | .ext _ | .node .. => cases e
    · rw [if_neg hf] at e
      simp only [if_neg hf]
      exact spliceBody_filled r ys e hm
termination_by structural fs
theorem spliceF_filled (fs gs : List (F × Obj)) (e : spliceF fs = .ok gs) (hm : markedF gs = false) :
    filledF fs = some gs ∧ reachedF fs = true := by
  match fs with
  | [] => cases e; exact ⟨rfl, rfl⟩
  | (f, .list xs) :: r =>
    simp only [spliceF, spliceField] at e
    cases e1 : spliceL xs with
    | error _ => rw [e1] at e; cases e
    | ok ys =>
      rw [e1] at e
      simp only at e
      cases e2 : spliceF r with
      | error _ => rw [e2] at e; cases e
      | ok r' =>
        rw [e2] at e; cases e
        simp only [markedF, marked, Bool.or_eq_false_iff] at hm
        have h1 := spliceL_filled xs ys e1 hm.1
        have h2 := spliceF_filled r r' e2 hm.2
        simp [filledF, filled, reachedF, reachedField, h1, h2]
  | (f, .node c l hs) :: r =>
    simp only [spliceF, spliceField] at e
    cases e2 : spliceF r with
    | error _ => rw [e2] at e; cases e
    | ok r' =>
      rw [e2] at e; cases e
      simp only [markedF, Bool.or_eq_false_iff] at hm
      have h2 := spliceF_filled r r' e2 hm.2
      simp [filledF, filled_self _ hm.1, reachedF, reachedField, h2, hm.1]
  | (f, .const _) :: r | (f, .tuple _) :: r | (f, .set _) :: r | (f, .dict ..) :: r | (f, .ref _) :: r
  | (f, .ext _) :: r =>
    simp only [spliceF, spliceField] at e
    cases e2 : spliceF r with
    | error _ => rw [e2] at e; cases e
    | ok r' =>
      rw [e2] at e; cases e
      simp only [markedF, Bool.or_eq_false_iff] at hm
      have h2 := spliceF_filled r r' e2 hm.2
      simp [filledF, filled, reachedF, reachedField, h2, marked]
termination_by structural fs
end

/-! ### When splicing succeeds -/

mutual
theorem splice_ok (x : Obj) (h : reached x = true) : ∃ y, splice x = .ok y ∧ marked y = false := by
  match x with
  | .list xs =>
    obtain ⟨ys, h1, h2⟩ := spliceL_ok xs h
    exact ⟨.list ys, by simp [splice, h1], by simp [marked, h2]⟩
  | .node c l fs =>
    simp only [reached] at h
    split at h
    · cases h
    · rename_i hc
      split at h
      · rename_i hg
        exact ⟨_, by simp only [splice, if_pos hg]; rfl, by simpa [marked, hc] using h⟩
      · rename_i hg
        obtain ⟨gs, h1, h2⟩ := spliceF_ok fs h
        exact ⟨_, by simp only [splice, if_neg hg, h1]; rfl, by simp [marked, hc, h2]⟩
  | .const _ | .tuple _ | .set _ | .dict .. | .ref _ | .ext _ => simp [reached] at h
termination_by structural x
theorem spliceL_ok (xs : List Obj) (h : reachedL xs = true) : ∃ ys, spliceL xs = .ok ys ∧ markedL ys = false := by
  match xs with
  | [] => exact ⟨[], rfl, rfl⟩
  | x :: xs =>
    simp only [reachedL, Bool.and_eq_true] at h
    obtain ⟨as, h1, h2⟩ := spliceItem_ok x h.1
    obtain ⟨bs, h3, h4⟩ := spliceL_ok xs h.2
    exact ⟨as ++ bs, by simp [spliceL, h1, h3], by simp [markedL_append, h2, h4]⟩
termination_by structural xs
theorem spliceItem_ok (x : Obj) (h : reachedItem x = true) : ∃ ys, spliceItem x = .ok ys ∧ markedL ys = false := by
  match x with
  | .list xs =>
    obtain ⟨ys, h1, h2⟩ := spliceL_ok xs h
    exact ⟨[.list ys], by simp [spliceItem, h1], by simp [markedL, marked, h2]⟩
  | .node c l fs =>
    simp only [reachedItem] at h
    split at h
    · rename_i hc
      obtain ⟨ys, h1, h2⟩ := spliceBody_ok fs h
      exact ⟨ys, by simp only [spliceItem, if_pos hc, h1], h2⟩
    · rename_i hc
      split at h
      · rename_i hg
        exact ⟨_, by simp only [spliceItem, if_neg hc, if_pos hg]; rfl, by simpa [markedL, marked, hc] using h⟩
      · rename_i hg
        obtain ⟨gs, h1, h2⟩ := spliceF_ok fs h
        exact ⟨_, by simp only [spliceItem, if_neg hc, if_neg hg, h1]; rfl, by simp [markedL, marked, hc, h2]⟩
  | .const _ | .tuple _ | .set _ | .dict .. | .ref _ | .ext _ => simp [reachedItem] at h
termination_by structural x
theorem spliceBody_ok (fs : List (F × Obj)) (h : reachedBody fs = true) :
    ∃ ys, spliceBody fs = .ok ys ∧ markedL ys = false := by
  match fs with
  | [] => cases h
  | (f, x) :: r =>
    simp only [reachedBody] at h
    simp only [spliceBody]
    by_cases hf : f = .body
    · rw [if_pos hf] at h
      simp only [if_pos hf]
      match x with
      | .list xs => exact spliceL_ok xs h
      | .const _ | .tuple _ | .set _ | .dict .. | .ref _ | .ext _ | .node .. => cases h
    · rw [if_neg hf] at h
      simp only [if_neg hf]
      exact spliceBody_ok r h
termination_by structural fs
theorem spliceF_ok (fs : List (F × Obj)) (h : reachedF fs = true) :
    ∃ gs, spliceF fs = .ok gs ∧ markedF gs = false := by
  match fs with
  | [] => exact ⟨[], rfl, rfl⟩
  | (f, .list xs) :: r =>
    simp only [reachedF, reachedField, Bool.and_eq_true] at h
    obtain ⟨ys, h1, h2⟩ := spliceL_ok xs h.1
    obtain ⟨r', h3, h4⟩ := spliceF_ok r h.2
    exact ⟨(f, .list ys) :: r', by simp [spliceF, spliceField, h1, h3], by simp [markedF, marked, h2, h4]⟩
  | (f, .const _) :: r | (f, .tuple _) :: r | (f, .set _) :: r | (f, .dict ..) :: r | (f, .ref _) :: r
  | (f, .ext _) :: r =>
    simp only [reachedF, reachedField, Bool.and_eq_true] at h
    obtain ⟨r', h3, h4⟩ := spliceF_ok r h.2
    exact ⟨_, by simp only [spliceF, spliceField, h3]; rfl, by simp [markedF, marked, h4]⟩
  | (f, .node c l hs) :: r =>
    simp only [reachedF, reachedField, Bool.and_eq_true, Bool.not_eq_true'] at h
    obtain ⟨r', h3, h4⟩ := spliceF_ok r h.2
    exact ⟨_, by simp only [spliceF, spliceField, h3]; rfl, by simp [markedF, h.1, h4]⟩
termination_by structural fs
end

theorem spliceAstLiterals_iff {x y : Obj} (hf : flat x = true) :
    spliceAstLiterals x = .ok y ↔ reached x = true ∧ filled x = some y := by
  constructor
  · intro e
    unfold spliceAstLiterals at e
    cases e1 : splice x with
    | error _ => rw [e1] at e; cases e
    | ok z =>
      rw [e1] at e
      simp only at e
      split at e
      · cases e
      · rename_i hm
        cases e
        rw [hasSpliceTop_eq y (splice_flat x y hf e1)] at hm
        have := splice_filled x y e1 (by simpa using hm)
        exact ⟨this.2, this.1⟩
  · rintro ⟨hr, hy⟩
    obtain ⟨z, h1, h2⟩ := splice_ok x hr
    have h3 := (splice_filled x z h1 h2).1
    rw [hy] at h3
    cases h3
    unfold spliceAstLiterals
    rw [h1]
    simp only [hasSpliceTop_eq y (splice_flat x y hf h1), h2]
    rfl

theorem spliceAstLiterals_unmarked {x y : Obj} (hf : flat x = true) (e : spliceAstLiterals x = .ok y) :
    marked y = false := by
  obtain ⟨hr, hy⟩ := (spliceAstLiterals_iff hf).1 e
  obtain ⟨z, h1, h2⟩ := splice_ok x hr
  have h3 := (splice_filled x z h1 h2).1
  rw [hy] at h3
  cases h3
  exact h2

/-! ### Trees without list unquotes -/

mutual
theorem splice_err (x : Obj) (h : marked x = false) (e : Err) (he : splice x = .error e) : e = .typeError := by
  match x with
  | .list xs =>
    simp only [splice] at he
    cases e1 : spliceL xs with
    | error _ => rw [e1] at he; cases he; exact spliceL_err xs h _ e1
    | ok ys => rw [e1] at he; cases he
  | .node c l fs =>
    simp only [marked, Bool.or_eq_false_iff] at h
    simp only [splice] at he
    split at he
    · cases he
    · cases e1 : spliceF fs with
      | error _ => rw [e1] at he; cases he; exact spliceF_err fs h.2 _ e1
      | ok ys => rw [e1] at he; cases he
  | .const _ | .tuple _ | .set _ | .dict .. | .ref _ | .ext _ => cases he; rfl
termination_by structural x
theorem spliceL_err (xs : List Obj) (h : markedL xs = false) (e : Err) (he : spliceL xs = .error e) :
    e = .typeError := by
  match xs with
  | [] => cases he
  | x :: xs =>
    simp only [markedL, Bool.or_eq_false_iff] at h
    simp only [spliceL] at he
    cases e1 : spliceItem x with
    | error _ => rw [e1] at he; cases he; exact spliceItem_err x h.1 _ e1
    | ok ys =>
      rw [e1] at he
      simp only at he
      cases e2 : spliceL xs with
      | error _ => rw [e2] at he; cases he; exact spliceL_err xs h.2 _ e2
      | ok zs => rw [e2] at he; cases he
termination_by structural xs
theorem spliceItem_err (x : Obj) (h : marked x = false) (e : Err) (he : spliceItem x = .error e) : e = .typeError := by
  match x with
  | .list xs =>
    simp only [spliceItem] at he
    cases e1 : spliceL xs with
    | error _ => rw [e1] at he; cases he; exact spliceL_err xs h _ e1
    | ok ys => rw [e1] at he; cases he
  | .node c l fs =>
    simp only [marked, Bool.or_eq_false_iff, decide_eq_false_iff_not] at h
    simp only [spliceItem, if_neg h.1] at he
    split at he
    · cases he
    · cases e1 : spliceF fs with
      | error _ => rw [e1] at he; cases he; exact spliceF_err fs h.2 _ e1
      | ok ys => rw [e1] at he; cases he
  | .const _ | .tuple _ | .set _ | .dict .. | .ref _ | .ext _ => cases he; rfl
termination_by structural x
theorem spliceF_err (fs : List (F × Obj)) (h : markedF fs = false) (e : Err) (he : spliceF fs = .error e) :
    e = .typeError := by
  match fs with
  | [] => cases he
  | (f, .list xs) :: r =>
    simp only [markedF, marked, Bool.or_eq_false_iff] at h
    simp only [spliceF, spliceField] at he
    cases e1 : spliceL xs with
    | error _ => rw [e1] at he; cases he; exact spliceL_err xs h.1 _ e1
    | ok ys =>
      rw [e1] at he
      simp only at he
      cases e2 : spliceF r with
      | error _ => rw [e2] at he; cases he; exact spliceF_err r h.2 _ e2
      | ok zs => rw [e2] at he; cases he
  | (f, .const _) :: r | (f, .tuple _) :: r | (f, .set _) :: r | (f, .dict ..) :: r | (f, .ref _) :: r
  | (f, .ext _) :: r | (f, .node ..) :: r =>
    simp only [markedF, Bool.or_eq_false_iff] at h
    simp only [spliceF, spliceField] at he
    cases e2 : spliceF r with
    | error _ => rw [e2] at he; cases he; exact spliceF_err r h.2 _ e2
    | ok zs => rw [e2] at he; cases he
termination_by structural fs
end

mutual
theorem splice_same (x y : Obj) (h : marked x = false) (e : splice x = .ok y) : y = x := by
  match x with
  | .list xs =>
    simp only [splice] at e
    cases e1 : spliceL xs with
    | error _ => rw [e1] at e; cases e
    | ok ys => rw [e1] at e; cases e; rw [spliceL_same xs ys h e1]
  | .node c l fs =>
    simp only [marked, Bool.or_eq_false_iff] at h
    simp only [splice] at e
    split at e
    · cases e; rfl
    · cases e1 : spliceF fs with
      | error _ => rw [e1] at e; cases e
      | ok ys => rw [e1] at e; cases e; rw [spliceF_same fs ys h.2 e1]
  | .const _ | .tuple _ | .set _ | .dict .. | .ref _ | .ext _ => cases e
termination_by structural x
theorem spliceL_same (xs ys : List Obj) (h : markedL xs = false) (e : spliceL xs = .ok ys) : ys = xs := by
  match xs with
  | [] => cases e; rfl
  | x :: xs =>
    simp only [markedL, Bool.or_eq_false_iff] at h
    simp only [spliceL] at e
    cases e1 : spliceItem x with
    | error _ => rw [e1] at e; cases e
    | ok as =>
      rw [e1] at e
      simp only at e
      cases e2 : spliceL xs with
      | error _ => rw [e2] at e; cases e
      | ok bs =>
        rw [e2] at e; cases e
        rw [spliceL_same xs bs h.2 e2, spliceItem_same x as h.1 e1]
        rfl
termination_by structural xs
theorem spliceItem_same (x : Obj) (ys : List Obj) (h : marked x = false) (e : spliceItem x = .ok ys) : ys = [x] := by
  match x with
  | .list xs =>
    simp only [spliceItem] at e
    cases e1 : spliceL xs with
    | error _ => rw [e1] at e; cases e
    | ok ys => rw [e1] at e; cases e; rw [spliceL_same xs ys h e1]
  | .node c l fs =>
    simp only [marked, Bool.or_eq_false_iff, decide_eq_false_iff_not] at h
    simp only [spliceItem, if_neg h.1] at e
    split at e
    · cases e; rfl
    · cases e1 : spliceF fs with
      | error _ => rw [e1] at e; cases e
      | ok gs => rw [e1] at e; cases e; rw [spliceF_same fs gs h.2 e1]
  | .const _ | .tuple _ | .set _ | .dict .. | .ref _ | .ext _ => cases e
termination_by structural x
theorem spliceF_same (fs gs : List (F × Obj)) (h : markedF fs = false) (e : spliceF fs = .ok gs) : gs = fs := by
  match fs with
  | [] => cases e; rfl
  | (f, .list xs) :: r =>
    simp only [markedF, marked, Bool.or_eq_false_iff] at h
    simp only [spliceF, spliceField] at e
    cases e1 : spliceL xs with
    | error _ => rw [e1] at e; cases e
    | ok ys =>
      rw [e1] at e
      simp only at e
      cases e2 : spliceF r with
      | error _ => rw [e2] at e; cases e
      | ok r' => rw [e2] at e; cases e; rw [spliceL_same xs ys h.1 e1, spliceF_same r r' h.2 e2]
  | (f, .const _) :: r | (f, .tuple _) :: r | (f, .set _) :: r | (f, .dict ..) :: r | (f, .ref _) :: r
  | (f, .ext _) :: r | (f, .node ..) :: r =>
    simp only [markedF, Bool.or_eq_false_iff] at h
    simp only [spliceF, spliceField] at e
    cases e2 : spliceF r with
    | error _ => rw [e2] at e; cases e
    | ok r' => rw [e2] at e; cases e; rw [spliceF_same r r' h.2 e2]
termination_by structural fs
end

/-- Without list unquotes, the tree stays as it is, or there is a TypeError. -/
theorem spliceAstLiterals_plain {x : Obj} (hf : flat x = true) (hm : marked x = false) :
    spliceAstLiterals x = if reached x = true then .ok x else .error .typeError := by
  split
  · rename_i hr
    exact (spliceAstLiterals_iff hf).2 ⟨hr, filled_self x hm⟩
  · rename_i hr
    unfold spliceAstLiterals
    cases e1 : splice x with
    | error e => simp only [splice_err x hm e e1]
    | ok y =>
      have := splice_same x y hm e1
      subst this
      exact absurd (splice_filled y y e1 hm).2 hr

end Mcpyrate.Quotes
