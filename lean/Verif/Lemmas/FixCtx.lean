import Verif.Model.FixCtx
import Verif.Spec.FixCtx
import Verif.Lemmas.Walk
import Verif.Lemmas.Tree
namespace Mcpyrate.FixCtx
open Py

def out (s : K) (c : Cls) (l : Loc) (fs : Fields) : Out K :=
  { loc := l, child := childState c s,
    leaf := fun f _ => if c.hasCtx ∧ f = .ctx then some (mk s []) else none,
    extra := if c.hasCtx ∧ (fs.lookup .ctx).isNone then [(.ctx, mk s [])] else [] }

theorem total : Total step out := by
  intro s c l fs o h
  simp only [step] at h
  split at h
  · exact (Except.ok.inj h).symm
  · simp at h

/-- The code's state is the ctx that the position requires. -/
theorem childState_eq (c : Cls) (d : K) (f : F) (h : d = .Load ∨ isTarget c = true)
    (hx : ¬ (c.hasCtx = true ∧ f = .ctx)) : childState c d f = childCtx c d f := by
  rcases h with rfl | h
  · cases c with
    | marker n => rfl
    | py k => cases k <;> first | rfl | (cases f <;> rfl)
  · cases c with
    | marker n => rfl
    | py k => cases k <;> first | (exact absurd h (by decide)) | rfl |
      (cases f <;> first | rfl | exact absurd ⟨rfl, rfl⟩ hx)

/-- Only targets in target positions, below a position requiring `d`. -/
def Valid (d : K) (t : Val) : Prop :=
  ∀ d' s, At d t d' s → d' ≠ .Load → s.isAST = true → s.hasCls isTarget = true

mutual
/-- Every node has the ctx its position requires. -/
def CtxOk (d : K) : Val → Prop
  | .const _ => True
  | .list xs => CtxOkL d xs
  | .node c _ fs => (c.hasCtx = true → fs.lookup .ctx = some (mk d [])) ∧ CtxOkF c d fs
def CtxOkF (c : Cls) (d : K) : List (F × Val) → Prop
  | [] => True
  | (_, .const _) :: r => CtxOkF c d r
  | (f, .list xs) :: r => CtxOkL (childCtx c d f) xs ∧ CtxOkF c d r
  | (f, .node e l fs) :: r => CtxOk (childCtx c d f) (.node e l fs) ∧ CtxOkF c d r
def CtxOkL (d : K) : List Val → Prop
  | [] => True
  | .node c l fs :: r => CtxOk d (.node c l fs) ∧ CtxOkL d r
  | .list _ :: r => CtxOkL d r
  | .const _ :: r => CtxOkL d r
end

theorem CtxOkF_node {c : Cls} {d : K} {fs : List (F × Val)} {f : F} {u : Val} (h : CtxOkF c d fs)
    (hm : (f, u) ∈ fs) (ha : u.isAST = true) : CtxOk (childCtx c d f) u := by
  induction fs with
  | nil => simp at hm
  | cons p r ih =>
    obtain ⟨g, v⟩ := p
    rcases List.mem_cons.1 hm with he | hm2
    · cases he
      cases u with
      | const => simp [Val.isAST] at ha
      | list => simp [Val.isAST] at ha
      | node => exact h.1
    · cases v with
      | const => exact ih h hm2
      | list => exact ih h.2 hm2
      | node => exact ih h.2 hm2

theorem CtxOkL_mem {d : K} {xs : List Val} {u : Val} (h : CtxOkL d xs) (hm : u ∈ xs)
    (ha : u.isAST = true) : CtxOk d u := by
  induction xs with
  | nil => simp at hm
  | cons x r ih =>
    rcases List.mem_cons.1 hm with he | hm2
    · cases he
      cases u with
      | const => simp [Val.isAST] at ha
      | list => simp [Val.isAST] at ha
      | node => exact h.1
    · cases x with
      | const => exact ih h hm2
      | list => exact ih h hm2
      | node => exact ih h.2 hm2

theorem CtxOkF_list {c : Cls} {d : K} {fs : List (F × Val)} {f : F} {xs : List Val}
    (h : CtxOkF c d fs) (hm : (f, .list xs) ∈ fs) : CtxOkL (childCtx c d f) xs := by
  induction fs with
  | nil => simp at hm
  | cons p r ih =>
    obtain ⟨g, v⟩ := p
    rcases List.mem_cons.1 hm with he | hm2
    · cases he; exact h.1
    · cases v with
      | const => exact ih h hm2
      | list => exact ih h.2 hm2
      | node => exact ih h.2 hm2

theorem CtxOk_at {d d' : K} {t s : Val} (ha : At d t d' s) (h : CtxOk d t) : CtxOk d' s := by
  induction ha with
  | refl => exact h
  | field hm hu _ ih => exact ih (CtxOkF_node h.2 hm hu)
  | item hm hx hu _ ih => exact ih (CtxOkL_mem (CtxOkF_list h.2 hm) hx hu)
  | elt hx hu _ ih => exact ih (CtxOkL_mem h hx hu)

/-- Looking up `ctx` after the walk. -/
theorem lookup_ctx (s : K) (c : Cls) (l : Loc) (all fs : Fields) (hc : c.hasCtx = true) :
    (tmapF out (out s c l all) fs).lookup .ctx = if (fs.lookup .ctx).isSome then some (mk s []) else none := by
  induction fs with
  | nil => rfl
  | cons p r ih =>
    obtain ⟨f, v⟩ := p
    by_cases hf : f = .ctx
    · subst hf
      cases v <;> simp [tmapF, out, hc]
    · have hb : (F.ctx == f) = false := by simpa using fun e => hf e.symm
      cases v <;> simp only [tmapF, List.lookup_cons, hb, ih]

theorem lookup_append (fs gs : Fields) (f : F) :
    (fs ++ gs).lookup f = ((fs.lookup f).or (gs.lookup f)) := by
  induction fs with
  | nil => simp
  | cons p r ih =>
    obtain ⟨g, v⟩ := p
    simp only [List.cons_append, List.lookup_cons, ih]
    split <;> simp

theorem ctx_after (s : K) (c : Cls) (l : Loc) (fs : Fields) (hc : c.hasCtx = true) :
    (tmapF out (out s c l fs) fs ++ (out s c l fs).extra).lookup .ctx = some (mk s []) := by
  rw [lookup_append, lookup_ctx s c l fs fs hc]
  cases hl : fs.lookup .ctx <;> simp [out, hc, hl]

theorem CtxOkF_append {c : Cls} {d : K} {fs gs : List (F × Val)} (h1 : CtxOkF c d fs)
    (h2 : CtxOkF c d gs) : CtxOkF c d (fs ++ gs) := by
  induction fs with
  | nil => exact h2
  | cons p r ih =>
    obtain ⟨f, v⟩ := p
    cases v with
    | const => exact ih h1
    | list => exact ⟨h1.1, ih h1.2⟩
    | node => exact ⟨h1.1, ih h1.2⟩

theorem ctx_leaf_ok (s e : K) (h : s = .Load ∨ s = .Store ∨ s = .Del) : CtxOk e (mk s []) := by
  rcases h with rfl | rfl | rfl <;> exact ⟨fun h => absurd h (by decide), trivial⟩


theorem isCtx_child (c : Cls) (s : K) (f : F) (h : IsCtx s) : IsCtx (childState c s f) := by
  simp only [childState]
  split <;> first | exact .inl rfl | exact .inr (.inl rfl) | exact .inr (.inr rfl) | exact h

mutual
theorem ctx_tmap (d : K) (hd : IsCtx d) (t : Val) (hv : Valid d t) : CtxOk d (tmap out d t) := by
  match t with
  | .const _ => trivial
  | .list xs =>
    simp only [tmap, CtxOk]
    exact ctxL_tmap d hd xs fun x hx ha d' s h => hv d' s (.elt hx ha h)
  | .node c l fs =>
    simp only [tmap, CtxOk]
    refine ⟨fun hc => ctx_after d c l fs hc, ?_⟩
    have hcs : ∀ f, ¬ (c.hasCtx = true ∧ f = .ctx) → childState c d f = childCtx c d f :=
      fun f => childState_eq c d f (by
      by_cases hL : d = .Load
      · exact .inl hL
      · exact .inr (hv d _ (.refl _ _) hL rfl))
    refine CtxOkF_append (ctxF_tmap d hd c l fs fs hcs (fun _ h => h) hv) ?_
    simp only [out]
    split
    · exact ⟨ctx_leaf_ok d _ hd, trivial⟩
    · trivial
termination_by structural t
theorem ctxF_tmap (d : K) (hd : IsCtx d) (c : Cls) (l : Loc) (all fs : List (F × Val))
    (hcs : ∀ f, ¬ (c.hasCtx = true ∧ f = .ctx) → childState c d f = childCtx c d f) (hsub : ∀ q ∈ fs, q ∈ all)
    (hv : Valid d (.node c l all)) : CtxOkF c d (tmapF out (out d c l all) fs) := by
  match fs with
  | [] => trivial
  | (f, .const k) :: r =>
    have ih := ctxF_tmap d hd c l all r hcs (fun q hq => hsub q (by simp [hq])) hv
    by_cases hf : c.hasCtx = true ∧ f = .ctx
    · have : (out d c l all).leaf f (.const k) = some (mk d []) := by simp [out, hf]
      simp only [tmapF, this, Option.getD_some]
      exact ⟨ctx_leaf_ok d _ hd, ih⟩
    · have : (out d c l all).leaf f (.const k) = none := by simp only [out, if_neg hf]
      simp only [tmapF, this, Option.getD_none]
      exact ih
  | (f, .list xs) :: r =>
    have ih := ctxF_tmap d hd c l all r hcs (fun q hq => hsub q (by simp [hq])) hv
    by_cases hf : c.hasCtx = true ∧ f = .ctx
    · have : (out d c l all).leaf f (.list xs) = some (mk d []) := by simp [out, hf]
      simp only [tmapF, this, Option.getD_some]
      exact ⟨ctx_leaf_ok d _ hd, ih⟩
    · have : (out d c l all).leaf f (.list xs) = none := by simp only [out, if_neg hf]
      simp only [tmapF, this, Option.getD_none]
      have hst : (out d c l all).child f = childState c d f := rfl
      refine ⟨?_, ih⟩
      rw [hst, ← hcs f hf]
      refine ctxL_tmap _ (isCtx_child c d f hd) xs fun x hx ha d' s h => ?_
      exact hv d' s (.item (hsub _ List.mem_cons_self) hx ha (hcs f hf ▸ h))
  | (f, .node e m gs) :: r =>
    have ih := ctxF_tmap d hd c l all r hcs (fun q hq => hsub q (by simp [hq])) hv
    by_cases hf : c.hasCtx = true ∧ f = .ctx
    · have : (out d c l all).leaf f (.node e m gs) = some (mk d []) := by simp [out, hf]
      simp only [tmapF, this, Option.getD_some]
      exact ⟨ctx_leaf_ok d _ hd, ih⟩
    · have : (out d c l all).leaf f (.node e m gs) = none := by simp only [out, if_neg hf]
      have hst : (out d c l all).child f = childState c d f := rfl
      have h1 := ctx_tmap (childState c d f) (isCtx_child c d f hd) (.node e m gs)
        (fun d' s h => hv d' s (.field (hsub _ List.mem_cons_self) rfl (hcs f hf ▸ h)))
      simp only [tmap] at h1
      simp only [tmapF, this, Option.getD_none, tmap, hst]
      refine ⟨?_, ih⟩
      rw [← hcs f hf]
      exact h1
termination_by structural fs
theorem ctxL_tmap (d : K) (hd : IsCtx d) (xs : List Val)
    (hv : ∀ x ∈ xs, x.isAST = true → Valid d x) : CtxOkL d (tmapL out d xs) := by
  match xs with
  | [] => trivial
  | .const _ :: r => exact ctxL_tmap d hd r (fun x hx => hv x (by simp [hx]))
  | .list _ :: r => exact ctxL_tmap d hd r (fun x hx => hv x (by simp [hx]))
  | .node e m gs :: r =>
    have h1 := ctx_tmap d hd (.node e m gs) (hv _ List.mem_cons_self rfl)
    simp only [tmap] at h1
    simp only [tmapL, tmap]
    exact ⟨h1, ctxL_tmap d hd r (fun x hx => hv x (by simp [hx]))⟩
termination_by structural xs
end

/-! ### right contexts are not changed -/

/-- As `AllRight`, at a position that requires `d`. -/
def RightAt (d : K) (t : Val) : Prop := ∀ d' c l fs, At d t d' (.node c l fs) → c.hasCtx = true →
  (fs.filter fun q => q.1 == .ctx) = [(.ctx, mk d' [])]

mutual
theorem id_tmap (d : K) (t : Val) (hv : Valid d t) (hr : RightAt d t) : tmap out d t = t := by
  match t with
  | .const _ => rfl
  | .list xs =>
    simp only [tmap]
    rw [idL_tmap d xs (fun x hx ha d' s h => hv d' s (.elt hx ha h)) (fun x hx ha d' c l fs h => hr d' c l fs (.elt hx ha h))]
  | .node c l fs =>
    have hcs : ∀ f, ¬ (c.hasCtx = true ∧ f = .ctx) → childState c d f = childCtx c d f :=
      fun f => childState_eq c d f (by
      by_cases hL : d = .Load
      · exact .inl hL
      · exact .inr (hv d _ (.refl _ _) hL rfl))
    have hm : c.hasCtx = true → ∀ v, (F.ctx, v) ∈ fs → v = mk d [] := by
      intro hc v hv'
      have : (F.ctx, v) ∈ fs.filter fun q => q.1 == .ctx := List.mem_filter.2 ⟨hv', by simp⟩
      rw [hr d c l fs (.refl _ _) hc] at this
      simpa using this
    have hex : (out d c l fs).extra = [] := by
      simp only [out]
      split
      · rename_i h
        have h0 := hr d c l fs (.refl _ _) h.1
        have h0' : (F.ctx, mk d []) ∈ fs.filter fun q => q.1 == .ctx := by rw [h0]; simp
        have : (F.ctx, mk d []) ∈ fs := (List.mem_filter.1 h0').1
        have h1 := h.2
        rw [Option.isNone_iff_eq_none, List.lookup_eq_none_iff] at h1
        exact absurd (h1 _ this) (by simp)
      · rfl
    simp only [tmap]
    rw [hex, List.append_nil, idF_tmap d c l fs fs hcs hm (fun _ h => h) hv hr]
    rfl
termination_by structural t
theorem idF_tmap (d : K) (c : Cls) (l : Loc) (all fs : List (F × Val))
    (hcs : ∀ f, ¬ (c.hasCtx = true ∧ f = .ctx) → childState c d f = childCtx c d f)
    (hm : c.hasCtx = true → ∀ v, (F.ctx, v) ∈ all → v = mk d []) (hsub : ∀ q ∈ fs, q ∈ all)
    (hv : Valid d (.node c l all)) (hr : RightAt d (.node c l all)) : tmapF out (out d c l all) fs = fs := by
  match fs with
  | [] => rfl
  | (f, .const k) :: r =>
    have ih := idF_tmap d c l all r hcs hm (fun q hq => hsub q (by simp [hq])) hv hr
    by_cases hf : c.hasCtx = true ∧ f = .ctx
    · have := hm hf.1 (.const k) (hf.2 ▸ hsub _ List.mem_cons_self)
      cases this
    · have : (out d c l all).leaf f (.const k) = none := by simp only [out, if_neg hf]
      simp only [tmapF, this, Option.getD_none, ih]
  | (f, .list xs) :: r =>
    have ih := idF_tmap d c l all r hcs hm (fun q hq => hsub q (by simp [hq])) hv hr
    by_cases hf : c.hasCtx = true ∧ f = .ctx
    · have := hm hf.1 (.list xs) (hf.2 ▸ hsub _ List.mem_cons_self)
      cases this
    · have : (out d c l all).leaf f (.list xs) = none := by simp only [out, if_neg hf]
      have hst : (out d c l all).child f = childCtx c d f := hcs f hf
      simp only [tmapF, this, Option.getD_none, ih, hst]
      rw [idL_tmap _ xs
        (fun x hx ha d' s h => hv d' s (.item (hsub _ List.mem_cons_self) hx ha h))
        (fun x hx ha d' c' l' gs h => hr d' c' l' gs (.item (hsub _ List.mem_cons_self) hx ha h))]
  | (f, .node e m gs) :: r =>
    have ih := idF_tmap d c l all r hcs hm (fun q hq => hsub q (by simp [hq])) hv hr
    by_cases hf : c.hasCtx = true ∧ f = .ctx
    · have h2 := hm hf.1 (.node e m gs) (hf.2 ▸ hsub _ List.mem_cons_self)
      have : (out d c l all).leaf f (.node e m gs) = some (mk d []) := by simp [out, hf]
      simp only [tmapF, this, Option.getD_some, ih, ← h2]
    · have : (out d c l all).leaf f (.node e m gs) = none := by simp only [out, if_neg hf]
      have hst : (out d c l all).child f = childCtx c d f := hcs f hf
      have h1 := id_tmap (childCtx c d f) (.node e m gs)
        (fun d' s h => hv d' s (.field (hsub _ List.mem_cons_self) rfl h))
        (fun d' c' l' gs' h => hr d' c' l' gs' (.field (hsub _ List.mem_cons_self) rfl h))
      simp only [tmapF, this, Option.getD_none, hst, ih, h1]
termination_by structural fs
theorem idL_tmap (d : K) (xs : List Val) (hv : ∀ x ∈ xs, x.isAST = true → Valid d x)
    (hr : ∀ x ∈ xs, x.isAST = true → RightAt d x) : tmapL out d xs = xs := by
  match xs with
  | [] => rfl
  | .const _ :: r =>
    simp only [tmapL]
    rw [idL_tmap d r (fun x hx => hv x (by simp [hx])) (fun x hx => hr x (by simp [hx]))]
  | .list _ :: r =>
    simp only [tmapL]
    rw [idL_tmap d r (fun x hx => hv x (by simp [hx])) (fun x hx => hr x (by simp [hx]))]
  | .node e m gs :: r =>
    have h1 := id_tmap d (.node e m gs) (hv _ List.mem_cons_self rfl) (hr _ List.mem_cons_self rfl)
    simp only [tmapL]
    rw [h1, idL_tmap d r (fun x hx => hv x (by simp [hx])) (fun x hx => hr x (by simp [hx]))]
termination_by structural xs
end

/-! ### only ctx fields change -/
theorem eraseCtxF_append (c : Cls) (fs gs : List (F × Val)) :
    eraseCtxF c (fs ++ gs) = eraseCtxF c fs ++ eraseCtxF c gs := by
  induction fs with
  | nil => rfl
  | cons p r ih =>
    obtain ⟨f, v⟩ := p
    cases v <;> simp only [List.cons_append, eraseCtxF, ih] <;> split <;> simp

mutual
theorem erase_tmap (d : K) (t : Val) : eraseCtx (tmap out d t) = eraseCtx t := by
  match t with
  | .const _ => rfl
  | .list xs => simp only [tmap, eraseCtx]; rw [eraseL_tmap d xs]
  | .node c l fs =>
    have h : eraseCtxF c (out d c l fs).extra = [] := by
      simp only [out]
      split
      · rename_i hc; simp [eraseCtxF, hc.1]
      · rfl
    simp only [tmap, eraseCtx]
    rw [eraseCtxF_append, h, List.append_nil, eraseF_tmap d c l fs fs]
    rfl
theorem eraseF_tmap (d : K) (c : Cls) (l : Loc) (all fs : List (F × Val)) :
    eraseCtxF c (tmapF out (out d c l all) fs) = eraseCtxF c fs := by
  match fs with
  | [] => rfl
  | (f, .const k) :: r =>
    have ih := eraseF_tmap d c l all r
    by_cases hf : c.hasCtx = true ∧ f = .ctx
    · have : (out d c l all).leaf f (.const k) = some (mk d []) := by simp [out, hf]
      simp only [tmapF, this, Option.getD_some, eraseCtxF, if_pos hf, ih]
    · have : (out d c l all).leaf f (.const k) = none := by simp only [out, if_neg hf]
      simp only [tmapF, this, Option.getD_none, eraseCtxF, ih]
  | (f, .list xs) :: r =>
    have ih := eraseF_tmap d c l all r
    by_cases hf : c.hasCtx = true ∧ f = .ctx
    · have : (out d c l all).leaf f (.list xs) = some (mk d []) := by simp [out, hf]
      simp only [tmapF, this, Option.getD_some, eraseCtxF, if_pos hf, ih]
    · have : (out d c l all).leaf f (.list xs) = none := by simp only [out, if_neg hf]
      simp only [tmapF, this, Option.getD_none, eraseCtxF, ih, eraseL_tmap _ xs]
  | (f, .node e m gs) :: r =>
    have ih := eraseF_tmap d c l all r
    by_cases hf : c.hasCtx = true ∧ f = .ctx
    · have : (out d c l all).leaf f (.node e m gs) = some (mk d []) := by simp [out, hf]
      simp only [tmapF, this, Option.getD_some, eraseCtxF, if_pos hf, ih]
    · have : (out d c l all).leaf f (.node e m gs) = none := by simp only [out, if_neg hf]
      have h1 := erase_tmap ((out d c l all).child f) (.node e m gs)
      simp only [tmap] at h1
      simp only [tmapF, this, Option.getD_none, tmap, eraseCtxF, ih, h1]
theorem eraseL_tmap (d : K) (xs : List Val) : eraseCtxL (tmapL out d xs) = eraseCtxL xs := by
  match xs with
  | [] => rfl
  | .const _ :: r => simp only [tmapL, eraseCtxL, eraseL_tmap d r]
  | .list _ :: r => simp only [tmapL, eraseCtxL, eraseL_tmap d r]
  | .node e m gs :: r =>
    have h1 := erase_tmap d (.node e m gs)
    simp only [tmap] at h1
    simp only [tmapL, tmap, eraseCtxL, eraseL_tmap d r, h1]
end

/-! ### idempotence -/
theorem tmapF_append (o : Out K) (fs gs : List (F × Val)) :
    tmapF out o (fs ++ gs) = tmapF out o fs ++ tmapF out o gs := by
  induction fs with
  | nil => rfl
  | cons p r ih =>
    obtain ⟨f, v⟩ := p
    cases v <;> simp only [List.cons_append, tmapF, ih]

mutual
theorem idem_tmap (d : K) (t : Val) : tmap out d (tmap out d t) = tmap out d t := by
  match t with
  | .const _ => rfl
  | .list xs => simp only [tmap]; rw [idemL_tmap d xs]
  | .node c l fs =>
    simp only [tmap]
    generalize hfs : tmapF out (out d c l fs) fs ++ (out d c l fs).extra = fs'
    have hl : c.hasCtx = true → fs'.lookup .ctx = some (mk d []) := fun hc => by
      rw [← hfs]; exact ctx_after d c l fs hc
    have hex : (out d c (out d c l fs).loc fs').extra = [] := by
      simp only [out]
      split
      · rename_i h; rw [hl h.1] at h; simp at h
      · rfl
    have hloc : (out d c (out d c l fs).loc fs').loc = (out d c l fs).loc := rfl
    rw [hloc, hex, List.append_nil]
    congr 1
    rw [← hfs, tmapF_append, idemF_tmap d c _ _ _ fs l]
    congr 1
    simp only [out]
    split
    · rename_i h; simp [tmapF, h.1]
    · rfl
theorem idemF_tmap (d : K) (c : Cls) (l' : Loc) (all all' : Fields) (fs : List (F × Val)) (l : Loc) :
    tmapF out (out d c l' all') (tmapF out (out d c l all) fs) = tmapF out (out d c l all) fs := by
  match fs with
  | [] => rfl
  | (f, .const k) :: r =>
    have ih := idemF_tmap d c l' all all' r l
    by_cases hf : c.hasCtx = true ∧ f = .ctx
    · have : ∀ l all v, (out d c l all).leaf f v = some (mk d []) := by simp [out, hf]
      simp only [tmapF, this, Option.getD_some, ih]
    · have : ∀ l all v, (out d c l all).leaf f v = none := by simp only [out, if_neg hf]; simp
      simp only [tmapF, this, Option.getD_none, ih]
  | (f, .list xs) :: r =>
    have ih := idemF_tmap d c l' all all' r l
    by_cases hf : c.hasCtx = true ∧ f = .ctx
    · have : ∀ l all v, (out d c l all).leaf f v = some (mk d []) := by simp [out, hf]
      simp only [tmapF, this, Option.getD_some, ih]
    · have : ∀ l all v, (out d c l all).leaf f v = none := by simp only [out, if_neg hf]; simp
      have hch : ∀ l all, (out d c l all).child f = childState c d f := fun _ _ => rfl
      simp only [tmapF, this, Option.getD_none, ih, hch, idemL_tmap _ xs]
  | (f, .node e m gs) :: r =>
    have ih := idemF_tmap d c l' all all' r l
    by_cases hf : c.hasCtx = true ∧ f = .ctx
    · have : ∀ l all v, (out d c l all).leaf f v = some (mk d []) := by simp [out, hf]
      simp only [tmapF, this, Option.getD_some, ih]
    · have : ∀ l all v, (out d c l all).leaf f v = none := by simp only [out, if_neg hf]; simp
      have hch : ∀ l all, (out d c l all).child f = childState c d f := fun _ _ => rfl
      have h1 := idem_tmap (childState c d f) (.node e m gs)
      simp only [tmap] at h1
      simp only [tmapF, this, Option.getD_none, tmap, hch, ih, h1]
theorem idemL_tmap (d : K) (xs : List Val) : tmapL out d (tmapL out d xs) = tmapL out d xs := by
  match xs with
  | [] => rfl
  | .const _ :: r => simp only [tmapL, idemL_tmap d r]
  | .list _ :: r => simp only [tmapL, idemL_tmap d r]
  | .node e m gs :: r =>
    have h1 := idem_tmap d (.node e m gs)
    simp only [tmap] at h1
    simp only [tmapL, tmap, idemL_tmap d r, h1]
end

/-! ### decidable forms of `TargetsOk` and `AllRight`, for concrete cases -/
mutual
def validB (P : K → Cls → List (F × Val) → Bool) (d : K) : Val → Bool
  | .const _ => true
  | .list xs => validBL P d xs
  | .node c _ fs => P d c fs && validBF P c d fs
def validBF (P : K → Cls → List (F × Val) → Bool) (c : Cls) (d : K) : List (F × Val) → Bool
  | [] => true
  | (_, .const _) :: r => validBF P c d r
  | (f, .list xs) :: r => validBL P (childCtx c d f) xs && validBF P c d r
  | (f, .node e l fs) :: r => validB P (childCtx c d f) (.node e l fs) && validBF P c d r
def validBL (P : K → Cls → List (F × Val) → Bool) (d : K) : List Val → Bool
  | [] => true
  | .node c l fs :: r => validB P d (.node c l fs) && validBL P d r
  | .list _ :: r => validBL P d r
  | .const _ :: r => validBL P d r
end

theorem validBF_node {P : K → Cls → List (F × Val) → Bool} {c : Cls} {d : K} {fs : List (F × Val)} {f : F} {u : Val}
    (h : validBF P c d fs = true) (hm : (f, u) ∈ fs) (ha : u.isAST = true) :
    validB P (childCtx c d f) u = true := by
  induction fs with
  | nil => simp at hm
  | cons p r ih =>
    obtain ⟨g, v⟩ := p
    rcases List.mem_cons.1 hm with he | hm2
    · cases he
      cases u <;> simp [Val.isAST] at ha
      simp only [validBF, Bool.and_eq_true] at h; exact h.1
    · cases v <;> simp only [validBF, Bool.and_eq_true] at h
      · exact ih h hm2
      · exact ih h.2 hm2
      · exact ih h.2 hm2

theorem validBF_list {P : K → Cls → List (F × Val) → Bool} {c : Cls} {d : K} {fs : List (F × Val)} {f : F} {xs : List Val}
    (h : validBF P c d fs = true) (hm : (f, .list xs) ∈ fs) : validBL P (childCtx c d f) xs = true := by
  induction fs with
  | nil => simp at hm
  | cons p r ih =>
    obtain ⟨g, v⟩ := p
    rcases List.mem_cons.1 hm with he | hm2
    · cases he
      simp only [validBF, Bool.and_eq_true] at h; exact h.1
    · cases v <;> simp only [validBF, Bool.and_eq_true] at h
      · exact ih h hm2
      · exact ih h.2 hm2
      · exact ih h.2 hm2

theorem validBL_mem {P : K → Cls → List (F × Val) → Bool} {d : K} {xs : List Val} {u : Val} (h : validBL P d xs = true) (hm : u ∈ xs)
    (ha : u.isAST = true) : validB P d u = true := by
  induction xs with
  | nil => simp at hm
  | cons x r ih =>
    rcases List.mem_cons.1 hm with he | hm2
    · cases he
      cases u <;> simp [Val.isAST] at ha
      simp only [validBL, Bool.and_eq_true] at h; exact h.1
    · cases x <;> simp only [validBL, Bool.and_eq_true] at h
      · exact ih h hm2
      · exact ih h hm2
      · exact ih h.2 hm2

theorem validB_at {P : K → Cls → List (F × Val) → Bool} {d d' : K} {t s : Val} (ha : At d t d' s) (h : validB P d t = true) :
    validB P d' s = true := by
  induction ha with
  | refl => exact h
  | field hm hu _ ih =>
    simp only [validB, Bool.and_eq_true] at h; exact ih (validBF_node h.2 hm hu)
  | item hm hx hu _ ih =>
    simp only [validB, Bool.and_eq_true] at h
    exact ih (validBL_mem (validBF_list h.2 hm) hx hu)
  | elt hx hu _ ih => exact ih (validBL_mem h hx hu)

theorem TargetsOk.of_valid {t : Val} (h : validB (fun d c _ => d == .Load || isTarget c) .Load t = true) : TargetsOk t := by
  intro d s ha hd hs
  have := validB_at ha h
  cases s with
  | const => simp [Val.isAST] at hs
  | list => simp [Val.isAST] at hs
  | node c l fs =>
    have hb : (d == K.Load) = false := by simpa using hd
    simp only [validB, hb, Bool.false_or, Bool.and_eq_true] at this
    exact this.1

theorem AllRight.of_valid {t : Val} (h : validB (fun d c fs => !c.hasCtx ||
    decide ((fs.filter fun q => q.1 == .ctx) = [(.ctx, mk d [])])) .Load t = true) : AllRight t := by
  intro d c l fs ha hc
  have := validB_at ha h
  simp only [validB, Bool.and_eq_true] at this
  simpa [hc] using this.1

theorem step_ok (t : Val) (h : FieldsOk t) (s : K) (c : Cls) (l : Loc)
    (fs : Fields) (hr : Reach t (.node c l fs)) : ∃ o, step s c l fs = .ok o := by
  suffices (required c).all (fun f => (fs.lookup f).isSome) = true by
    exact ⟨_, by simp only [step, this]; rfl⟩
  cases c with
  | marker n => rfl
  | py k =>
    have := h k l fs hr
    cases k <;> first | rfl | simpa [required] using this

end Mcpyrate.FixCtx
