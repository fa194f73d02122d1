import Verif.Spec.Like
import Verif.Lemmas.ExpanderSyntax
import Verif.Lemmas.FixCtx
import Verif.Lemmas.FixLocations
/-
Trees that are the same up to locations and `ctx` fields: `fix_locations` and `fix_ctx` do not change
what is a macro invocation.
-/
namespace Mcpyrate.Expander
open Py

variable {υ : Type}

theorem tmapF_length {S : Type} (out : S → Cls → Loc → Fields → Out S) (o : Out S) (fs : List (F × Val)) :
    (tmapF out o fs).length = fs.length := by
  match fs with
  | [] => rfl
  | (f, .const c) :: r => simp [tmapF, tmapF_length out o r]
  | (f, .list xs) :: r => simp [tmapF, tmapF_length out o r]
  | (f, .node c l gs) :: r => simp [tmapF, tmapF_length out o r]

theorem lookup_of_mem {fs : Fields} {f : F} (h : f ∈ fs.map (·.1)) : (fs.lookup f).isNone = false := by
  induction fs with
  | nil => cases h
  | cons p r ih =>
    obtain ⟨g, v⟩ := p
    rw [List.lookup_cons]
    by_cases e : f = g
    · subst e; simp
    · have hb : (f == g) = false := by simpa using e
      rw [hb]
      exact ih (by simpa [e] using h)

mutual
theorem Like.refl (t : Val) : Like t t := by
  match t with
  | .const c => exact .const c
  | .list xs => exact .list (LikeL.refl xs)
  | .node c l fs => exact .node (LikeF.refl c fs) fun _ => rfl
theorem LikeF.refl (c : Cls) (fs : List (F × Val)) : LikeF c fs fs := by
  match fs with
  | [] => exact .nil
  | (f, v) :: r => exact .field (Like.refl v) (LikeF.refl c r)
theorem LikeL.refl (xs : List Val) : LikeL xs xs := by
  match xs with
  | [] => exact .nil
  | x :: xs => exact .same (LikeL.refl xs)
end

/-! ### what the fixers do -/
mutual
theorem like_loc (mode : FixLocations.Mode) (s : Loc) (t : Val) :
    Like t (tmap (FixLocations.out mode) s t) := by
  match t with
  | .const c => exact .const c
  | .list xs => exact .list (likeL_loc mode s xs)
  | .node c l fs =>
    have h := FixLocations.out_leaf mode s c l fs
    simp only [tmap, h.2, List.append_nil]
    exact .node (likeF_loc mode _ c fs h.1) fun _ => tmapF_length _ _ _
theorem likeF_loc (mode : FixLocations.Mode) (o : Out Loc) (c : Cls) (fs : List (F × Val))
    (h : o.leaf = fun _ _ => none) : LikeF c fs (tmapF (FixLocations.out mode) o fs) := by
  match fs with
  | [] => exact .nil
  | (f, .const c') :: r =>
    simp only [tmapF, h, Option.getD_none]
    exact .field (.const _) (likeF_loc mode o c r h)
  | (f, .list xs) :: r =>
    simp only [tmapF, h, Option.getD_none]
    exact .field (.list (likeL_loc mode _ xs)) (likeF_loc mode o c r h)
  | (f, .node d m gs) :: r =>
    simp only [tmapF, h, Option.getD_none]
    exact .field (like_loc mode _ (.node d m gs)) (likeF_loc mode o c r h)
theorem likeL_loc (mode : FixLocations.Mode) (s : Loc) (xs : List Val) :
    LikeL xs (tmapL (FixLocations.out mode) s xs) := by
  match xs with
  | [] => exact .nil
  | .const _ :: r => exact .same (likeL_loc mode s r)
  | .list _ :: r => exact .same (likeL_loc mode s r)
  | .node c l gs :: r => exact .cons (like_loc mode s (.node c l gs)) (likeL_loc mode s r)
end

mutual
theorem like_ctx (d : K) (hd : FixCtx.IsCtx d) (t : Val) : Like t (tmap FixCtx.out d t) := by
  match t with
  | .const c => exact .const c
  | .list xs => exact .list (likeL_ctx d hd xs)
  | .node c l fs =>
    refine .node (likeF_ctx d hd c l fs _ fs (by
      simp only [FixCtx.out]
      split
      · rename_i h; exact .inr ⟨h.1, rfl⟩
      · exact .inl rfl)) fun hm => ?_
    have hs : (fs.lookup .ctx).isNone = false := lookup_of_mem hm
    rw [List.length_append, tmapF_length]
    simp [FixCtx.out, hs]
theorem likeF_ctx (d : K) (hd : FixCtx.IsCtx d) (c : Cls) (l : Loc) (all : Fields) (ex : Fields)
    (fs : List (F × Val)) (hex : ex = [] ∨ (c.hasCtx = true ∧ ex = [(.ctx, mk d [])])) :
    LikeF c fs (tmapF FixCtx.out (FixCtx.out d c l all) fs ++ ex) := by
  match fs with
  | [] =>
    rcases hex with rfl | ⟨h, rfl⟩
    · exact .nil
    · exact .extra h hd
  | (f, .const k) :: r =>
    have ih := likeF_ctx d hd c l all ex r hex
    by_cases hf : c.hasCtx = true ∧ f = .ctx
    · have : (FixCtx.out d c l all).leaf f (.const k) = some (mk d []) := by simp [FixCtx.out, hf]
      simp only [tmapF, this, Option.getD_some, List.cons_append]
      rw [hf.2]; exact .ctx hf.1 hd ih
    · have : (FixCtx.out d c l all).leaf f (.const k) = none := by simp only [FixCtx.out, if_neg hf]
      simp only [tmapF, this, Option.getD_none, List.cons_append]
      exact .field (.const _) ih
  | (f, .list xs) :: r =>
    have ih := likeF_ctx d hd c l all ex r hex
    by_cases hf : c.hasCtx = true ∧ f = .ctx
    · have : (FixCtx.out d c l all).leaf f (.list xs) = some (mk d []) := by simp [FixCtx.out, hf]
      simp only [tmapF, this, Option.getD_some, List.cons_append]
      rw [hf.2]; exact .ctx hf.1 hd ih
    · have : (FixCtx.out d c l all).leaf f (.list xs) = none := by simp only [FixCtx.out, if_neg hf]
      simp only [tmapF, this, Option.getD_none, List.cons_append]
      exact .field (.list (likeL_ctx _ (FixCtx.isCtx_child c d f hd) xs)) ih
  | (f, .node e m gs) :: r =>
    have ih := likeF_ctx d hd c l all ex r hex
    by_cases hf : c.hasCtx = true ∧ f = .ctx
    · have : (FixCtx.out d c l all).leaf f (.node e m gs) = some (mk d []) := by simp [FixCtx.out, hf]
      simp only [tmapF, this, Option.getD_some, List.cons_append]
      rw [hf.2]; exact .ctx hf.1 hd ih
    · have : (FixCtx.out d c l all).leaf f (.node e m gs) = none := by simp only [FixCtx.out, if_neg hf]
      simp only [tmapF, this, Option.getD_none, List.cons_append]
      exact .field (like_ctx _ (FixCtx.isCtx_child c d f hd) (.node e m gs)) ih
theorem likeL_ctx (d : K) (hd : FixCtx.IsCtx d) (xs : List Val) :
    LikeL xs (tmapL FixCtx.out d xs) := by
  match xs with
  | [] => exact .nil
  | .const _ :: r => exact .same (likeL_ctx d hd r)
  | .list _ :: r => exact .same (likeL_ctx d hd r)
  | .node c l gs :: r => exact .cons (like_ctx d hd (.node c l gs)) (likeL_ctx d hd r)
end

theorem like_fixLocations {t t' : Val} {ref : Loc} {mode : FixLocations.Mode} (ht : t.isTree = true)
    (h : FixLocations.fixLocations t ref mode = .ok t') : Like t t' := by
  by_cases hr : FixLocations.Located ref
  · rw [FixLocations.fixLocations_eq t ref mode ht hr] at h
    rw [← Except.ok.inj h]; exact like_loc _ _ _
  · have hn : ¬ (FixLocations.Attr.has ref.lineno = true ∧ FixLocations.Attr.has ref.colOffset = true) :=
      fun hh => hr ⟨(FixLocations.has_iff _).1 hh.1, (FixLocations.has_iff _).1 hh.2⟩
    rw [FixLocations.fixLocations, if_pos hn] at h
    rw [Except.ok.inj h]; exact Like.refl _

theorem like_fixCtx {t t' : Val} (ht : t.isTree = true) (h : FixCtx.fixCtx t = .ok t') : Like t t' := by
  rw [walk_tmap FixCtx.total .Load t t' h ht]; exact like_ctx _ (.inl rfl) _

/-! ### what is kept -/
theorem Like.isK {t u : Val} (h : Like t u) (k : K) : u.isK k = t.isK k := by
  cases h with
  | const | list => rfl
  | node => rename_i c _ _ _ _ _ _; cases c <;> rfl
theorem Like.isAST {t u : Val} (h : Like t u) : u.isAST = t.isAST := by
  cases h <;> rfl
theorem Like.isNone {t u : Val} (h : Like t u) : u.isNone = t.isNone := by
  cases h <;> rfl
theorem Like.isDone {t u : Val} (h : Like t u) : isDone u = isDone t := by
  cases h with
  | const | list => rfl
  | node => unfold Expander.isDone; split <;> split <;> simp_all
theorem LikeL.length {xs ys : List Val} : LikeL xs ys → ys.length = xs.length
  | .nil => rfl
  | .same h => by simp [h.length]
  | .cons _ h => by simp [h.length]
theorem LikeL.mem {xs ys : List Val} {y : Val} : LikeL xs ys → y ∈ ys → ∃ x ∈ xs, Like x y
  | .nil, h => by cases h
  | .same (x := x) hl, h => by
    rcases List.mem_cons.mp h with rfl | h
    · exact ⟨_, by simp, Like.refl _⟩
    · obtain ⟨x, hx, hxy⟩ := hl.mem h; exact ⟨x, by simp [hx], hxy⟩
  | .cons h1 hl, h => by
    rcases List.mem_cons.mp h with rfl | h
    · exact ⟨_, by simp, h1⟩
    · obtain ⟨x, hx, hxy⟩ := hl.mem h; exact ⟨x, by simp [hx], hxy⟩
theorem LikeL.mem' {xs ys : List Val} {x : Val} : LikeL xs ys → x ∈ xs → ∃ y ∈ ys, Like x y
  | .nil, h => by cases h
  | .same (x := x) hl, h => by
    rcases List.mem_cons.mp h with rfl | h
    · exact ⟨_, by simp, Like.refl _⟩
    · obtain ⟨x, hx, hxy⟩ := hl.mem' h; exact ⟨x, by simp [hx], hxy⟩
  | .cons h1 hl, h => by
    rcases List.mem_cons.mp h with rfl | h
    · exact ⟨_, by simp, h1⟩
    · obtain ⟨x, hx, hxy⟩ := hl.mem' h; exact ⟨x, by simp [hx], hxy⟩
theorem Like.isTree {t u : Val} (h : Like t u) (ht : t.isTree = true) : u.isTree = true := by
  cases h with
  | const => exact ht
  | node => rfl
  | list hl =>
    simp only [Val.isTree, List.all_eq_true] at ht ⊢
    intro y hy
    obtain ⟨x, hx, hxy⟩ := hl.mem hy
    rw [hxy.isAST]; exact ht x hx

/-- Looking up a field other than `ctx`. -/
theorem LikeF.lookup {c : Cls} {fs fs' : Fields} {f : F} (hf : f ≠ .ctx) :
    LikeF c fs fs' → (fs.lookup f = none ∧ fs'.lookup f = none) ∨
      ∃ v v', fs.lookup f = some v ∧ fs'.lookup f = some v' ∧ Like v v'
  | .nil => .inl ⟨rfl, rfl⟩
  | .extra _ _ => by
    have hb : (f == F.ctx) = false := by simpa using hf
    exact .inl ⟨rfl, by simp [List.lookup, hb]⟩
  | .field (f := g) hv hr => by
    simp only [List.lookup_cons]
    cases f == g with
    | true => exact .inr ⟨_, _, rfl, rfl, hv⟩
    | false => exact hr.lookup hf
  | .ctx _ _ hr => by
    have hb : (f == F.ctx) = false := by simpa using hf
    simp only [List.lookup_cons, hb]
    exact hr.lookup hf

theorem Like.get {t u v : Val} {f : F} (h : Like t u) (hf : f ≠ .ctx) (hv : t.get? f = some v) :
    ∃ v', u.get? f = some v' ∧ Like v v' := by
  cases h with
  | const | list => cases hv
  | node hF =>
    rcases hF.lookup hf with ⟨h1, h2⟩ | ⟨v1, v2, h1, h2, h3⟩
    · have : some v = none := hv.symm.trans h1
      cases this
    · have : some v = some v1 := hv.symm.trans h1
      cases this
      exact ⟨v2, h2, h3⟩

theorem Like.get' {t u v' : Val} {f : F} (h : Like t u) (hf : f ≠ .ctx) (hv : u.get? f = some v') :
    ∃ v, t.get? f = some v ∧ Like v v' := by
  cases h with
  | const | list => cases hv
  | node hF =>
    rcases hF.lookup hf with ⟨h1, h2⟩ | ⟨v1, v2, h1, h2, h3⟩
    · have : some v' = none := hv.symm.trans h2
      cases this
    · have : some v' = some v2 := hv.symm.trans h2
      cases this
      exact ⟨v1, h1, h3⟩

theorem Like.list_inv {xs : List Val} {u : Val} (h : Like (.list xs) u) :
    ∃ ys, u = .list ys ∧ LikeL xs ys := by
  cases h with
  | list h => exact ⟨_, rfl, h⟩
theorem Like.list_inv' {ys : List Val} {t : Val} (h : Like t (.list ys)) :
    ∃ xs, t = .list xs ∧ LikeL xs ys := by
  cases h with
  | list h => exact ⟨_, rfl, h⟩
theorem Like.const_inv {c : Const} {u : Val} (h : Like (.const c) u) : u = .const c := by cases h; rfl
theorem Like.const_inv' {c : Const} {t : Val} (h : Like t (.const c)) : t = .const c := by cases h; rfl

/-- The children are the same, up to the `ctx` objects. -/
theorem LikeF.child {c : Cls} {fs fs' : Fields} {l l' : Loc} {y : Val} (h : LikeF c fs fs') :
    y ∈ childNodes (.node c l' fs') →
      (∃ x ∈ childNodes (.node c l fs), Like x y) ∨ ∃ s, FixCtx.IsCtx s ∧ y = mk s [] := by
  intro hy
  simp only [childNodes, List.mem_flatMap] at hy
  obtain ⟨⟨f, v'⟩, hm, hy⟩ := hy
  have key : ∀ {fs fs'}, LikeF c fs fs' → (f, v') ∈ fs' →
      (∃ v, (f, v) ∈ fs ∧ Like v v') ∨ ∃ s, FixCtx.IsCtx s ∧ v' = mk s [] := by
    intro fs
    induction fs with
    | nil =>
      intro fs' h hm
      cases h with
      | nil => cases hm
      | extra _ hs => simp at hm; exact .inr ⟨_, hs, hm.2⟩
    | cons p r ih =>
      intro fs' h hm
      cases h with
      | field hv hr =>
        rcases List.mem_cons.mp hm with e | hm
        · cases e; exact .inl ⟨_, by simp, hv⟩
        · rcases ih hr hm with ⟨v, h1, h2⟩ | h
          · exact .inl ⟨v, by simp [h1], h2⟩
          · exact .inr h
      | ctx _ hs hr =>
        rcases List.mem_cons.mp hm with e | hm
        · cases e; exact .inr ⟨_, hs, rfl⟩
        · rcases ih hr hm with ⟨v, h1, h2⟩ | h
          · exact .inl ⟨v, by simp [h1], h2⟩
          · exact .inr h
  rcases key h hm with ⟨v, hv, hl⟩ | ⟨s, hs, rfl⟩
  · left
    cases hl with
    | const => cases hy
    | @node d m _ gs _ hF hc =>
      rw [List.mem_singleton] at hy
      subst hy
      refine ⟨.node d m gs, ?_, .node hF hc⟩
      simp only [childNodes, List.mem_flatMap]
      exact ⟨_, hv, by simp⟩
    | list hL =>
      rw [List.mem_filter] at hy
      obtain ⟨x, hx, hxy⟩ := hL.mem hy.1
      refine ⟨x, ?_, hxy⟩
      simp only [childNodes, List.mem_flatMap]
      exact ⟨_, hv, by rw [List.mem_filter]; exact ⟨hx, hxy.isAST ▸ hy.2⟩⟩
  · right
    rw [List.mem_singleton] at hy
    exact ⟨s, hs, hy⟩

theorem Like.child {t u y : Val} (h : Like t u) (hy : y ∈ childNodes u) :
    (∃ x ∈ childNodes t, Like x y) ∨ ∃ s, FixCtx.IsCtx s ∧ y = mk s [] := by
  cases h with
  | const => cases hy
  | list hL =>
    simp only [childNodes, List.mem_filter] at hy ⊢
    obtain ⟨x, hx, hxy⟩ := hL.mem hy.1
    exact .inl ⟨x, ⟨hx, hxy.isAST ▸ hy.2⟩, hxy⟩
  | node hF => exact hF.child hy

/-! ### well-formedness -/
theorem Like.hasField {t u : Val} (h : Like t u) {f : F} (hf : f ≠ .ctx) (ht : hasField t f = true) :
    hasField u f = true := by
  unfold Expander.hasField at ht ⊢
  obtain ⟨v, hv⟩ := Option.isSome_iff_exists.mp ht
  obtain ⟨v', hv', -⟩ := h.get hf hv
  rw [hv']; rfl
theorem Like.hasList {t u : Val} (h : Like t u) {f : F} (hf : f ≠ .ctx) (ht : hasList t f = true) :
    hasList u f = true := by
  unfold Expander.hasList at ht ⊢
  split at ht
  · rename_i xs hv
    obtain ⟨v', hv', hl⟩ := h.get hf hv
    obtain ⟨ys, rfl, -⟩ := hl.list_inv
    rw [hv']
  · cases ht

theorem Like.fieldsOk {t u : Val} (h : Like t u) (ht : fieldsOk t = true) : fieldsOk u = true := by
  have hh := h
  cases h with
  | const | list => rfl
  | node hF =>
    rename_i c l l' fs fs'
    unfold Expander.fieldsOk at ht ⊢
    split at ht
    all_goals rename_i he; (try cases he)
    · exact hh.hasField (by decide) ht
    · simp only [Bool.and_eq_true] at ht ⊢
      exact ⟨hh.hasField (by decide) ht.1, hh.hasField (by decide) ht.2⟩
    · simp only [Bool.and_eq_true] at ht ⊢
      exact ⟨⟨hh.hasField (by decide) ht.1.1, hh.hasList (by decide) ht.1.2⟩, hh.hasField (by decide) ht.2⟩
    · exact hh.hasList (by decide) ht
    · split at ht
      · rename_i items hi
        obtain ⟨v', hv', hl⟩ := hh.get (by decide) hi
        obtain ⟨ys, rfl, hL⟩ := hl.list_inv
        dsimp only
        rw [hv']
        simp only [List.all_eq_true, Bool.and_eq_true] at ht ⊢
        intro y hy
        obtain ⟨x, hx, hxy⟩ := hL.mem hy
        exact ⟨hxy.isK _ ▸ (ht x hx).1, hxy.hasField (by decide) (ht x hx).2⟩
      · cases ht
    · exact hh.hasList (by decide) ht
    · exact hh.hasList (by decide) ht
    · split <;> simp_all

theorem fieldsOk_ctx {s : K} (h : FixCtx.IsCtx s) : fieldsOk (mk s []) = true := by
  rcases h with rfl | rfl | rfl <;> rfl

theorem child_mem {t u : Val} (h : Child t u) : u ∈ childNodes t := by
  cases h with
  | field hm hs =>
    simp only [childNodes, List.mem_flatMap]
    exact ⟨_, hm, by cases u <;> simp_all [Val.isAST]⟩
  | item hm hx hs =>
    simp only [childNodes, List.mem_flatMap]
    exact ⟨_, hm, by rw [List.mem_filter]; exact ⟨hx, hs⟩⟩
  | elt hx hs => simp only [childNodes, List.mem_filter]; exact ⟨hx, hs⟩

theorem WellFormed.like {t u : Val} (ht : WellFormed t) (h : Like t u) : WellFormed u := by
  intro v hv
  induction hv generalizing t with
  | refl u => exact h.fieldsOk ht.self
  | step hc hr ih =>
    rcases h.child (child_mem hc) with ⟨x, hx, hxy⟩ | ⟨s, hs, rfl⟩
    · exact ih (ht.child hx) hxy
    · cases hr with
      | refl => exact fieldsOk_ctx hs
      | step hc' _ =>
        have := child_mem hc'
        simp [childNodes] at this

/-! ### macro names -/
theorem Like.strField {t u : Val} {f : F} {k : String} (h : Like t u) (hf : f ≠ .ctx)
    (hv : t.get? f = some (.str k)) : u.get? f = some (.str k) := by
  obtain ⟨v', h1, h2⟩ := h.get hf hv
  rw [h1, h2.const_inv]

theorem Like.candidate {t u : Val} {k : String} {as : List Val} (h : Like t u) (hc : Candidate t k as) :
    ∃ as', Candidate u k as' ∧ as'.length = as.length := by
  cases hc with
  | plain hk hi => exact ⟨[], .plain (by rw [h.isK]; exact hk) (h.strField (by decide) hi), rfl⟩
  | bracket hk hv hn hi hs ht =>
    obtain ⟨v', h1, h2⟩ := h.get (by decide) hv
    obtain ⟨a', h3, h4⟩ := h.get (by decide) hs
    exact ⟨[a'], .bracket (by rw [h.isK]; exact hk) h1 (by rw [h2.isK]; exact hn)
      (h2.strField (by decide) hi) h3 (by rw [h4.isK]; exact ht), rfl⟩
  | brackets hk hv hn hi hs ht he =>
    obtain ⟨v', h1, h2⟩ := h.get (by decide) hv
    obtain ⟨a', h3, h4⟩ := h.get (by decide) hs
    obtain ⟨e', h5, h6⟩ := h4.get (by decide) he
    obtain ⟨ys, rfl, hL⟩ := h6.list_inv
    exact ⟨ys, .brackets (by rw [h.isK]; exact hk) h1 (by rw [h2.isK]; exact hn)
      (h2.strField (by decide) hi) h3 (by rw [h4.isK]; exact ht) h5, hL.length⟩
  | parens hk hv hn hi hs ht he =>
    obtain ⟨v', h1, h2⟩ := h.get (by decide) hv
    obtain ⟨a', h3, h4⟩ := h.get (by decide) hs
    obtain ⟨e', h5, h6⟩ := h.get (by decide) he
    obtain ⟨ys, rfl, hL⟩ := h6.list_inv
    refine ⟨ys, .parens (by rw [h.isK]; exact hk) h1 (by rw [h2.isK]; exact hn)
      (h2.strField (by decide) hi) h3 ?_ h5, hL.length⟩
    rcases ht with rfl | rfl
    · obtain ⟨zs, rfl, hz⟩ := h4.list_inv
      cases hz; exact .inl rfl
    · exact .inr h4.const_inv

theorem Like.candidate' {t u : Val} {k : String} {as' : List Val} (h : Like t u) (hc : Candidate u k as') :
    ∃ as, Candidate t k as ∧ as'.length = as.length := by
  have str' : ∀ {t u : Val} {f : F} {k : String}, Like t u → f ≠ .ctx → u.get? f = some (.str k) →
      t.get? f = some (.str k) := by
    intro t u f k h hf hv
    obtain ⟨v', h1, h2⟩ := h.get' hf hv
    rw [h1, h2.const_inv']
  cases hc with
  | plain hk hi => exact ⟨[], .plain (by rw [← h.isK]; exact hk) (str' h (by decide) hi), rfl⟩
  | bracket hk hv hn hi hs ht =>
    obtain ⟨v', h1, h2⟩ := h.get' (by decide) hv
    obtain ⟨a', h3, h4⟩ := h.get' (by decide) hs
    exact ⟨[a'], .bracket (by rw [← h.isK]; exact hk) h1 (by rw [← h2.isK]; exact hn)
      (str' h2 (by decide) hi) h3 (by rw [← h4.isK]; exact ht), rfl⟩
  | brackets hk hv hn hi hs ht he =>
    obtain ⟨v', h1, h2⟩ := h.get' (by decide) hv
    obtain ⟨a', h3, h4⟩ := h.get' (by decide) hs
    obtain ⟨e', h5, h6⟩ := h4.get' (by decide) he
    obtain ⟨ys, rfl, hL⟩ := h6.list_inv'
    exact ⟨ys, .brackets (by rw [← h.isK]; exact hk) h1 (by rw [← h2.isK]; exact hn)
      (str' h2 (by decide) hi) h3 (by rw [← h4.isK]; exact ht) h5, hL.length⟩
  | parens hk hv hn hi hs ht he =>
    obtain ⟨v', h1, h2⟩ := h.get' (by decide) hv
    obtain ⟨a', h3, h4⟩ := h.get' (by decide) hs
    obtain ⟨e', h5, h6⟩ := h.get' (by decide) he
    obtain ⟨ys, rfl, hL⟩ := h6.list_inv'
    refine ⟨ys, .parens (by rw [← h.isK]; exact hk) h1 (by rw [← h2.isK]; exact hn)
      (str' h2 (by decide) hi) h3 ?_ h5, hL.length⟩
    rcases ht with rfl | rfl
    · obtain ⟨zs, rfl, hz⟩ := h4.list_inv'
      cases hz; exact .inl rfl
    · exact .inr h4.const_inv'

theorem length_nil {as as' : List Val} (h : as'.length = as.length) : as' = [] ↔ as = [] := by
  rw [← List.length_eq_zero_iff, ← List.length_eq_zero_iff, h]

theorem Accepts.length {E : Env υ} {w : World υ} {k : String} {as as' : List Val} {id : Nat}
    (h : Accepts E w k as id) (hl : as'.length = as.length) : Accepts E w k as' id :=
  ⟨h.1, h.2.1, h.2.2.imp (length_nil hl).mpr fun x => x⟩

theorem Like.names {E : Env υ} {w : World υ} {t u : Val} (h : Like t u) : Names E w u ↔ Names E w t := by
  constructor
  · rintro ⟨k, as, id, hc, ha⟩
    obtain ⟨as', hc', hl⟩ := h.candidate' hc
    exact ⟨k, as', id, hc', ha.length hl.symm⟩
  · rintro ⟨k, as, id, hc, ha⟩
    obtain ⟨as', hc', hl⟩ := h.candidate hc
    exact ⟨k, as', id, hc', ha.length hl⟩

/-- The effect of both fixers. -/
theorem fixed_like {t e1 e2 : Val} {ref : Loc} {mode : FixLocations.Mode} (ht : t.isTree = true)
    (h1 : FixLocations.fixLocations t ref mode = .ok e1) (h2 : FixCtx.fixCtx e1 = .ok e2) :
    ∃ m, Like t m ∧ Like m e2 :=
  ⟨e1, like_fixLocations ht h1, like_fixCtx ((like_fixLocations ht h1).isTree ht) h2⟩

end Mcpyrate.Expander
