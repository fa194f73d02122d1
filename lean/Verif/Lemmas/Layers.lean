import Verif.Spec.Layers
import Verif.Lemmas.ExpanderFixpoint
/-
Expansion as a relation, for macros that are functions.
-/
namespace Mcpyrate.Expander.Layers
open Py

variable {υ : Type} {E : Env υ} {w : World υ}

/-! ### tidy trees -/

theorem tidy_child {t u : Val} (h : Tidy t) (hu : u ∈ childNodes t) : Tidy u :=
  ⟨h.1.child hu, fun v hv => h.2 v (.step (childNodes_child hu) hv)⟩

theorem tidy_of {t : Val} (h1 : fieldsOk t = true) (h2 : nestingOk t = true) (h3 : stmtsInBlocks t = true)
    (hc : ∀ u ∈ childNodes t, Tidy u) : Tidy t := by
  refine ⟨⟨fun v hv => ?_, fun v hv => ?_⟩, fun v hv => ?_⟩
  · cases hv with
    | refl => exact h1
    | step hch hr => exact (hc _ (child_mem hch)).1.1 v hr
  · cases hv with
    | refl => exact h2
    | step hch hr => exact (hc _ (child_mem hch)).1.2 v hr
  · cases hv with
    | refl => exact h3
    | step hch hr => exact (hc _ (child_mem hch)).2 v hr

theorem tidy_list {xs : List Val} (h : ∀ x ∈ xs, Tidy x) : Tidy (.list xs) :=
  tidy_of rfl rfl rfl fun u hu => h u (List.mem_filter.mp hu).1

theorem tidy_const (c : Const) : Tidy (.const c) := tidy_of rfl rfl rfl (by simp [childNodes])

theorem tidy_item {xs : List Val} (h : Tidy (.list xs)) (ht : (Val.list xs).isTree = true) {x : Val} (hx : x ∈ xs) : Tidy x :=
  tidy_child h (List.mem_filter.mpr ⟨hx, List.all_eq_true.mp ht x hx⟩)

/-- A check of all nodes. -/
theorem tidy_check {t : Val} (h : (preorder t).all (fun u => fieldsOk u && nestingOk u && stmtsInBlocks u) = true) :
    Tidy t := by
  have key : ∀ u, Reach t u → fieldsOk u = true ∧ nestingOk u = true ∧ stmtsInBlocks u = true := by
    intro u hu
    cases hua : u.isAST with
    | true =>
      have := List.all_eq_true.mp h u (reach_mem_preorder hu hua)
      simp only [Bool.and_eq_true] at this
      exact ⟨this.1.1, this.1.2, this.2⟩
    | false => cases u with
      | const => exact ⟨rfl, rfl, rfl⟩
      | list => exact ⟨rfl, rfl, rfl⟩
      | node => cases hua
  exact ⟨⟨fun u hu => (key u hu).1, fun u hu => (key u hu).2.1⟩, fun u hu => (key u hu).2.2⟩

theorem LikeF_mem {c : Cls} {fs fs' : Fields} (h : LikeF c fs fs') {f : F} {v' : Val} (hm : (f, v') ∈ fs') :
    (∃ v, (f, v) ∈ fs ∧ Like v v') ∨ (f = .ctx ∧ ∃ s, FixCtx.IsCtx s ∧ v' = mk s []) := by
  match h with
  | .nil => cases hm
  | .extra _ hs => rcases List.mem_singleton.mp hm with h; cases h; exact .inr ⟨rfl, _, hs, rfl⟩
  | .field hv hr =>
    rcases List.mem_cons.mp hm with h | h
    · cases h; exact .inl ⟨_, by simp, hv⟩
    · exact (LikeF_mem hr h).imp (fun ⟨v, h1, h2⟩ => ⟨v, by simp [h1], h2⟩) id
  | .ctx _ hs hr =>
    rcases List.mem_cons.mp hm with h | h
    · cases h; exact .inr ⟨rfl, _, hs, rfl⟩
    · exact (LikeF_mem hr h).imp (fun ⟨v, h1, h2⟩ => ⟨v, by simp [h1], h2⟩) id

theorem stmtsInBlocks_iff {c : Cls} {l : Loc} {fs : Fields} : stmtsInBlocks (.node c l fs) = true ↔
    ∀ f v, (f, v) ∈ fs → isMacroStmt v = false ∧
      (f = .decorator_list → ∀ xs, v = .list xs → ∀ x ∈ xs, isMacroStmt x = false) := by
  simp only [stmtsInBlocks, List.all_eq_true, Bool.and_eq_true, Bool.not_eq_true', Prod.forall]
  constructor
  · intro h f v hm
    refine ⟨(h f v hm).1, ?_⟩
    rintro rfl xs rfl x hx
    have := (h _ _ hm).2
    simp only [bne_self_eq_false, Bool.false_or, List.all_eq_true, Bool.not_eq_true'] at this
    exact this x hx
  · intro h f v hm
    refine ⟨(h f v hm).1, ?_⟩
    cases v with
    | const | node => rfl
    | list xs =>
      by_cases hf : f = .decorator_list
      · subst hf
        simp only [bne_self_eq_false, Bool.false_or, List.all_eq_true, Bool.not_eq_true']
        exact (h _ _ hm).2 rfl xs rfl
      · simp [hf]

theorem like_stmts {t u : Val} (h : Like t u) (ht : stmtsInBlocks t = true) : stmtsInBlocks u = true := by
  cases h with
  | const | list => rfl
  | node hF =>
    rw [stmtsInBlocks_iff] at ht ⊢
    intro f v' hm
    rcases LikeF_mem hF hm with ⟨v, h1, h2⟩ | ⟨rfl, s, hs, rfl⟩
    · obtain ⟨h3, h4⟩ := ht f v h1
      refine ⟨by rw [h2.isMacroStmt]; exact h3, fun hf xs hx y hy => ?_⟩
      subst hx
      cases h2 with
      | list hL =>
        obtain ⟨x, h5, h6⟩ := hL.mem hy
        rw [h6.isMacroStmt]
        exact h4 hf _ rfl x h5
    · refine ⟨?_, fun h => by cases h⟩
      rcases hs with rfl | rfl | rfl <;> rfl

theorem tidy_like {t u : Val} (ht : Tidy t) (h : Like t u) : Tidy u := by
  refine ⟨ht.1.like h, fun v hv => ?_⟩
  have ht2 := ht.2
  clear ht
  induction hv generalizing t with
  | refl u => exact like_stmts h (ht2 _ (.refl _))
  | step hc hr ih =>
    rcases h.child (child_mem hc) with ⟨x, hx, hxy⟩ | ⟨s, hs, rfl⟩
    · exact ih hxy fun v hv => ht2 v (.step (childNodes_child hx) hv)
    · cases hr with
      | refl => rcases hs with rfl | rfl | rfl <;> rfl
      | step hc' _ =>
        have := child_mem hc'
        simp [childNodes] at this

/-! ### the relation -/

/-- Item by item. -/
inductive All2 (R : Val → Val → Prop) : List Val → List Val → Prop
  | nil : All2 R [] []
  | cons {x y xs ys} : R x y → All2 R xs ys → All2 R (x :: xs) (y :: ys)

/-- The result for a list. -/
def ofList (xs : List Val) : Val := if xs.isEmpty then .none else .list xs

/-- What `visitExpansion` makes of the returned tree, before visiting it. -/
def Fixed (v : Val) (l : Loc) (e : Val) : Prop :=
  (v.isNone = true ∧ e = v) ∨
    (v.isNone = false ∧ ∃ e1, FixLocations.fixLocations v l .reference = .ok e1 ∧ FixCtx.fixCtx e1 = .ok e)

/-- The expansion of one application. -/
def Exp (E : Env υ) (i : Nat) (a : MArgs) (e : Val) : Prop :=
  ∃ v, Gives E i a v ∧ TidyExpansion a.synt v ∧ Fixed v (locOf a.invocation) e

/-- What the visit methods make of the expansion `e`, where `A` relates expansions to what is made of them. -/
inductive Finish (E : Env υ) (A : Val → Val → Prop) (t : Val) (k : String) (y : Syn) (c : Val) : Val → Val → Prop
  | nameNone {e} : y = .name → e.isNone = true → Finish E A t k y c e (coverageExpr (locOf t))
  | nameSame {e} : y = .name → e.isNone = false → isSameName k e = true → Finish E A t k y c e (done e)
  | name {e r} : y = .name → e.isNone = false → isSameName k e = false → A e r → Finish E A t k y c e r
  | exprNone {e} : y = .expr → e.isNone = true → Finish E A t k y c e (coverageExpr (locOf t))
  | expr {e r} : y = .expr → e.isNone = false → A e r →
      Finish E A t k y c e (if r.isNone then coverageExpr (locOf t) else r)
  | stmtNone {e r} : y = .block ∨ y = .decorator → e.isNone = true →
      insertCoverage E.filename k e (locOf (if y = .block then t else c)) = .ok r → Finish E A t k y c e r
  | stmt {e r' r} : y = .block ∨ y = .decorator → e.isNone = false → A e r' →
      insertCoverage E.filename k r' (locOf (if y = .block then t else c)) = .ok r → Finish E A t k y c e r

open Classical in
/-- The invocation that `t` is. -/
noncomputable def invOf (E : Env υ) (w : World υ) (t : Val) : Option (String × Nat × MArgs × Val) :=
  if h : ∃ p : String × Nat × MArgs × Val, Invokes E w t p.1 p.2.1 p.2.2.1 p.2.2.2 then some h.choose else none

theorem invOf_spec {t c : Val} {k : String} {i : Nat} {a : MArgs} (h : invOf E w t = some (k, i, a, c)) :
    Invokes E w t k i a c := by
  unfold invOf at h
  split at h
  · rename_i hex
    have := hex.choose_spec
    rw [Option.some.inj h] at this
    exact this
  · cases h

theorem invOf_some {t c : Val} {k : String} {i : Nat} {a : MArgs} (h : Invokes E w t k i a c) :
    ∃ p, invOf E w t = some p := by
  unfold invOf
  rw [dif_pos ⟨(k, i, a, c), h⟩]
  exact ⟨_, rfl⟩

theorem invokes_invocation {t c : Val} {k : String} {i : Nat} {a : MArgs} (h : Invokes E w t k i a c) :
    Invocation E w t := by
  cases h with
  | expr h1 h2 h3 h4 _ => exact .expr h1 h2 ⟨_, _, _, h3, h4⟩
  | block h1 h2 _ h4 h5 h6 _ => exact .block h1 h2 (by simp) h4 ⟨_, _, _, h5, h6⟩
  | decorator h1 h2 _ h4 h5 => exact .decorator h1 h2 (by simp) ⟨_, _, _, h4, h5⟩
  | name h1 h2 h3 h4 h5 => exact .name h1 h2 h3 h4 h5

theorem invocation_invOf {t : Val} (hg : Grammatical t) (h : Invocation E w t) :
    ∃ k i a c, invOf E w t = some (k, i, a, c) := by
  have hbody : t.isK .With = true → hasField t .body = true := by
    intro hk
    have := hg.2 _ (.refl _)
    simp only [nestingOk, hk, Bool.not_true, Bool.false_or, Bool.and_eq_true] at this
    exact this.1.2
  obtain ⟨k, id, a, c, hi⟩ := invocation_invokes hg.1 hbody h
  obtain ⟨⟨k, i, a, c⟩, hp⟩ := invOf_some hi
  exact ⟨k, i, a, c, hp⟩

/-- One call of `visit`: `A` relates expansions to what is made of them, `V` children to the results for them. -/
inductive Step (E : Env υ) (w : World υ) (A V : Val → Val → Prop) : Val → Val → Prop
  | same {t} : noBindings w = true ∨ isDone t = true ∨ t = .none → Step E w A V t t
  | list {xs ys} : noBindings w = false → All2 V xs ys → Step E w A V (.list xs) (ofList (Markers.flattenV ys))
  | name {t} : noBindings w = false → t.isK .Name = true → ¬ Invocation E w t → Step E w A V t t
  | generic {c l fs fs'} : noBindings w = false → isDone (.node c l fs) = false → c ≠ .py .Name →
      ¬ Invocation E w (.node c l fs) → GenF V fs fs' → Step E w A V (.node c l fs) (.node c l fs')
  | call {t k i a c e r} : noBindings w = false → isDone t = false → invOf E w t = some (k, i, a, c) → ¬ BadCall c →
      Exp E i a e → Finish E A t k a.synt c e r → Step E w A V t r

/-! ### monotonicity -/

theorem genL_mono {R S : Val → Val → Prop} (h : ∀ x y, R x y → S x y) {xs ys : List Val} (hl : GenL R xs ys) :
    GenL S xs ys := by
  induction hl with
  | nil => exact .nil
  | other hx _ ih => exact .other hx ih
  | item hx hr _ ih => exact .item hx (h _ _ hr) ih

theorem genF_mono {R S : Val → Val → Prop} (h : ∀ x y, R x y → S x y) {fs fs' : Fields} (hl : GenF R fs fs') :
    GenF S fs fs' := by
  induction hl with
  | nil => exact .nil
  | const _ ih => exact .const ih
  | list hx _ ih => exact .list (genL_mono h hx) ih
  | node hx hr hn _ ih => exact .node hx (h _ _ hr) hn ih
  | deleted hx hr hn _ ih => exact .deleted hx (h _ _ hr) hn ih

theorem all2_mono {R S : Val → Val → Prop} (h : ∀ x y, R x y → S x y) {xs ys : List Val} (hl : All2 R xs ys) :
    All2 S xs ys := by
  induction hl with
  | nil => exact .nil
  | cons hr _ ih => exact .cons (h _ _ hr) ih

theorem finish_mono {A B : Val → Val → Prop} (h : ∀ x y, A x y → B x y) {t c e r : Val} {k : String} {y : Syn}
    (hf : Finish E A t k y c e r) : Finish E B t k y c e r := by
  cases hf with
  | nameNone h1 h2 => exact .nameNone h1 h2
  | nameSame h1 h2 h3 => exact .nameSame h1 h2 h3
  | name h1 h2 h3 h4 => exact .name h1 h2 h3 (h _ _ h4)
  | exprNone h1 h2 => exact .exprNone h1 h2
  | expr h1 h2 h3 => exact .expr h1 h2 (h _ _ h3)
  | stmtNone h1 h2 h3 => exact .stmtNone h1 h2 h3
  | stmt h1 h2 h3 h4 => exact .stmt h1 h2 (h _ _ h3) h4

theorem Step.mono {A B V V' : Val → Val → Prop} (hA : ∀ x y, A x y → B x y) (hV : ∀ x y, V x y → V' x y) {t r : Val}
    (h : Step E w A V t r) : Step E w B V' t r := by
  cases h with
  | same h => exact .same h
  | list h1 h2 => exact .list h1 (all2_mono hV h2)
  | name h1 h2 h3 => exact .name h1 h2 h3
  | generic h1 h2 h3 h4 h5 => exact .generic h1 h2 h3 h4 (genF_mono hV h5)
  | call h1 h2 h3 h4 h5 h6 => exact .call h1 h2 h3 h4 h5 (finish_mono hA h6)

/-- Calls of `visit` nested at most `n` deep. -/
def It (E : Env υ) (w : World υ) (A : Val → Val → Prop) : Nat → Val → Val → Prop
  | 0 => fun _ _ => False
  | n + 1 => Step E w A (It E w A n)

def Fx (E : Env υ) (w : World υ) (A : Val → Val → Prop) (t r : Val) : Prop := ∃ n, It E w A n t r

/-- Expansions nested at most `D` deep, and all expanded. -/
def RD (E : Env υ) (w : World υ) : Nat → Val → Val → Prop
  | 0 => Fx E w fun _ _ => False
  | D + 1 => Fx E w (RD E w D)

theorem it_succ {A : Val → Val → Prop} : ∀ {n : Nat} {t r : Val}, It E w A n t r → It E w A (n + 1) t r
  | 0, _, _, h => h.elim
  | _ + 1, _, _, h => Step.mono (fun _ _ h => h) (fun _ _ h => it_succ h) h

theorem it_le {A : Val → Val → Prop} {n m : Nat} (hnm : n ≤ m) {t r : Val} (h : It E w A n t r) : It E w A m t r := by
  induction hnm with
  | refl => exact h
  | step _ ih => exact it_succ ih

theorem it_mono {A B : Val → Val → Prop} (hA : ∀ x y, A x y → B x y) : ∀ {n : Nat} {t r : Val}, It E w A n t r → It E w B n t r
  | 0, _, _, h => h.elim
  | _ + 1, _, _, h => Step.mono hA (fun _ _ h => it_mono hA h) h

theorem rd_succ : ∀ {D : Nat} {t r : Val}, RD E w D t r → RD E w (D + 1) t r
  | 0, _, _, ⟨n, h⟩ => ⟨n, it_mono (fun _ _ h => h.elim) h⟩
  | _ + 1, _, _, ⟨n, h⟩ => ⟨n, it_mono (fun _ _ h => rd_succ h) h⟩

theorem rd_le {D D' : Nat} (h : D ≤ D') {t r : Val} (hr : RD E w D t r) : RD E w D' t r := by
  induction h with
  | refl => exact hr
  | step _ ih => exact rd_succ ih

theorem genL_collect {A : Val → Val → Prop} {xs ys : List Val} (h : GenL (Fx E w A) xs ys) : ∃ n, GenL (It E w A n) xs ys := by
  induction h with
  | nil => exact ⟨0, .nil⟩
  | other hx _ ih => obtain ⟨n, ih⟩ := ih; exact ⟨n, .other hx ih⟩
  | item hx hr _ ih =>
    obtain ⟨n, ih⟩ := ih
    obtain ⟨m, hr⟩ := hr
    exact ⟨max n m, .item hx (it_le (Nat.le_max_right _ _) hr) (genL_mono (fun _ _ h => it_le (Nat.le_max_left _ _) h) ih)⟩

theorem genF_collect {A : Val → Val → Prop} {fs fs' : Fields} (h : GenF (Fx E w A) fs fs') : ∃ n, GenF (It E w A n) fs fs' := by
  induction h with
  | nil => exact ⟨0, .nil⟩
  | const _ ih => obtain ⟨n, ih⟩ := ih; exact ⟨n, .const ih⟩
  | list hx _ ih =>
    obtain ⟨n, ih⟩ := ih
    obtain ⟨m, hr⟩ := genL_collect hx
    exact ⟨max n m, .list (genL_mono (fun _ _ h => it_le (Nat.le_max_right _ _) h) hr) (genF_mono (fun _ _ h => it_le (Nat.le_max_left _ _) h) ih)⟩
  | node hx hr hn _ ih =>
    obtain ⟨n, ih⟩ := ih
    obtain ⟨m, hr⟩ := hr
    exact ⟨max n m, .node hx (it_le (Nat.le_max_right _ _) hr) hn (genF_mono (fun _ _ h => it_le (Nat.le_max_left _ _) h) ih)⟩
  | deleted hx hr hn _ ih =>
    obtain ⟨n, ih⟩ := ih
    obtain ⟨m, hr⟩ := hr
    exact ⟨max n m, .deleted hx (it_le (Nat.le_max_right _ _) hr) hn (genF_mono (fun _ _ h => it_le (Nat.le_max_left _ _) h) ih)⟩

theorem all2_collect {A : Val → Val → Prop} {xs ys : List Val} (h : All2 (Fx E w A) xs ys) : ∃ n, All2 (It E w A n) xs ys := by
  induction h with
  | nil => exact ⟨0, .nil⟩
  | cons hr _ ih =>
    obtain ⟨n, ih⟩ := ih
    obtain ⟨m, hr⟩ := hr
    exact ⟨max n m, .cons (it_le (Nat.le_max_right _ _) hr) (all2_mono (fun _ _ h => it_le (Nat.le_max_left _ _) h) ih)⟩

theorem fx_iff {A : Val → Val → Prop} {t r : Val} : Fx E w A t r ↔ Step E w A (Fx E w A) t r := by
  constructor
  · rintro ⟨n, h⟩
    cases n with
    | zero => exact h.elim
    | succ n => exact Step.mono (fun _ _ h => h) (fun _ _ h => ⟨n, h⟩) h
  · intro h
    have key : ∃ n, Step E w A (It E w A n) t r := by
      cases h with
      | same h => exact ⟨0, .same h⟩
      | list h1 h2 => obtain ⟨n, h⟩ := all2_collect h2; exact ⟨n, .list h1 h⟩
      | name h1 h2 h3 => exact ⟨0, .name h1 h2 h3⟩
      | generic h1 h2 h3 h4 h5 => obtain ⟨n, h⟩ := genF_collect h5; exact ⟨n, .generic h1 h2 h3 h4 h⟩
      | call h1 h2 h3 h4 h5 h6 => exact ⟨0, .call h1 h2 h3 h4 h5 h6⟩
    obtain ⟨n, h⟩ := key
    exact ⟨n + 1, h⟩

end Mcpyrate.Expander.Layers
