import Verif.Lemmas.Expander
import Verif.Lemmas.Tree
import Verif.Spec.Expander
/-
What one `visit` does: which macro applications happen, and where the result differs from the input.
-/
namespace Mcpyrate.Expander
open Py

variable {υ : Type}

theorem fresh_self (s : St υ) : fresh s s = [] := by simp [fresh]

theorem fresh_trans {a b c : St υ} (h1 : Frame a b) (h2 : Frame b c) :
    fresh a c = fresh a b ++ fresh b c := by
  obtain ⟨l, hl⟩ := h1.log
  obtain ⟨m, hm⟩ := h2.log
  simp [fresh, hm, hl]

theorem frame_refl (s : St υ) : Frame s s := frame_rel.refl s
theorem Frame.trans {a b c : St υ} (h1 : Frame a b) (h2 : Frame b c) : Frame a c :=
  frame_rel.trans h1 h2

/-- All new entries are at least as deep as the current depth. -/
def Deep (s s' : St υ) : Prop := Frame s s' ∧ ∀ e ∈ fresh s s', s.depth ≤ e.depth

theorem deep_rel : Rel (fun _ => True) (Deep (υ := υ)) where
  refl s := ⟨frame_refl s, by simp [fresh_self]⟩
  trans := by
    rintro a b c ⟨h1, h2⟩ ⟨g1, g2⟩
    refine ⟨h1.trans g1, fun e he => ?_⟩
    rw [fresh_trans h1 g1, List.mem_append] at he
    rcases he with he | he
    · exact h2 e he
    · rw [← h1.depth]; exact g2 e he
  log s x h1 h2 h3 h4 := ⟨frame_rel.log s x h1 h2 h3 h4, by simp [fresh, h1]⟩
  put s w _ := ⟨frame_rel.put s w trivial, by simp [fresh]⟩
  mode := by rintro s s' b ⟨h1, h2⟩; exact ⟨frame_rel.mode s s' b h1, h2⟩
  hook := by rintro s s' b ⟨h1, h2⟩; exact ⟨frame_rel.hook s s' b h1, h2⟩
  depth := by
    rintro s s' ⟨h1, h2⟩
    exact ⟨frame_rel.depth s s' h1, fun e he => Nat.le_of_succ_le (h2 e he)⟩
  new := by rintro s s' b ⟨h1, h2⟩; exact ⟨frame_rel.new s s' b h1, h2⟩

/-- All new entries are deeper than the current depth. -/
theorem runNested_deep {E : Env υ} {n : Nat} (p : Prog υ) (s : St υ) :
    M.Post (runNested (visit E n) p) s fun _ s' => Frame s s' ∧ ∀ e ∈ fresh s s', s.depth < e.depth := by
  unfold runNested
  rw [M.post_bracket]
  refine (run_pres deep_rel (visit_pres deep_rel E.all_true n) p p.all_true _).mono ?_
  rintro _ s' ⟨h1, h2⟩
  exact ⟨frame_rel.depth s s' h1, h2⟩

theorem invocations_self (s : St υ) : invocations s s = [] := by simp [invocations, fresh_self]

theorem invocations_trans {a b c : St υ} (h1 : Frame a b) (h2 : Frame b c) :
    invocations a c = invocations a b ++ invocations b c := by
  simp [invocations, fresh_trans h1 h2, h1.depth]

mutual
theorem PassL.append : {xs ys L M : List Val} → PassL xs L → PassL ys M → PassL (xs ++ ys) (L ++ M)
  | _, _, _, _, .nil, h => h
  | _, _, _, _, .cons t ts L' M' h1 h2, h => by
    rw [List.cons_append, List.append_assoc]
    exact .cons t _ L' _ h1 (PassL.append h2 h)
end

theorem PassL.skip : (xs : List Val) → PassL xs []
  | [] => .nil
  | x :: xs => .cons x xs [] [] (.skip x) (PassL.skip xs)

/-- What is said about one macro application during a visit: `d`, `b` are depth and mode at the start
of the visit. -/
def EntryOk (d : Nat) (b : Bool) (e : App) : Prop :=
  d ≤ e.depth ∧ (e.depth = d →
    e.recursive = (b && decide (e.margs.synt ≠ .name)) ∧ isDone e.margs.invocation = false)

/-- The effect of a computation on the state: `R` holds of the list of invocations it expands
directly, if the mode is not recursive. -/
structure Eff (R : List Val → Prop) (s s' : St υ) : Prop where
  frame : Frame s s'
  entries : ∀ e ∈ fresh s s', EntryOk s.depth s.recursive e
  pass : s.recursive = false → R (invocations s s')

theorem Eff.refl {R : List Val → Prop} (h : R []) (s : St υ) : Eff R s s :=
  ⟨frame_refl s, by simp [fresh_self], fun _ => by rw [invocations_self]; exact h⟩

theorem Eff.trans {R1 R2 R : List Val → Prop} {a b c : St υ} (h1 : Eff R1 a b) (h2 : Eff R2 b c)
    (h : ∀ l m, R1 l → R2 m → R (l ++ m)) : Eff R a c := by
  refine ⟨h1.frame.trans h2.frame, fun e he => ?_, fun hb => ?_⟩
  · rw [fresh_trans h1.frame h2.frame, List.mem_append] at he
    rcases he with he | he
    · exact h1.entries e he
    · rw [← h1.frame.depth, ← h1.frame.recursive]; exact h2.entries e he
  · rw [invocations_trans h1.frame h2.frame]
    exact h _ _ (h1.pass hb) (h2.pass (h1.frame.recursive.trans hb))

theorem Eff.mono {R R' : List Val → Prop} {s s' : St υ} (h : Eff R s s') (hR : ∀ l, R l → R' l) :
    Eff R' s s' := ⟨h.frame, h.entries, fun hb => hR _ (h.pass hb)⟩

theorem Expanded.left {a b c : St υ} (h1 : Frame a b) (h2 : Frame b c) {u : Val}
    (h : Expanded a b u) : Expanded a c u := by
  obtain ⟨e, he, hd, hi⟩ := h
  exact ⟨e, by rw [fresh_trans h1 h2]; exact List.mem_append_left _ he, hd, hi⟩

theorem Expanded.right {a b c : St υ} (h1 : Frame a b) (h2 : Frame b c) {u : Val}
    (h : Expanded b c u) : Expanded a c u := by
  obtain ⟨e, he, hd, hi⟩ := h
  exact ⟨e, by rw [fresh_trans h1 h2]; exact List.mem_append_right _ he, hd.trans h1.depth, hi⟩

mutual
theorem Agree.mono {A B : Val → Prop} (h : ∀ u, A u → B u) :
    {t t' : Val} → Agree A t t' → Agree B t t'
  | _, _, .refl t => .refl t
  | _, _, .replaced t t' ha => .replaced t t' (h _ ha)
  | _, _, .node c l fs fs' hd hf => .node c l fs fs' hd (AgreeF.mono h hf)
theorem AgreeF.mono {A B : Val → Prop} (h : ∀ u, A u → B u) :
    {fs fs' : Fields} → AgreeF A fs fs' → AgreeF B fs fs'
  | _, _, .nil => .nil
  | _, _, .const f c fs fs' hf => .const f c fs fs' (AgreeF.mono h hf)
  | _, _, .list f xs ys fs fs' hl hf => .list f xs ys fs fs' (AgreeL.mono h hl) (AgreeF.mono h hf)
  | _, _, .node f v v' fs fs' hi hv hn hf => .node f v v' fs fs' hi (Agree.mono h hv) hn (AgreeF.mono h hf)
  | _, _, .deleted f v v' fs fs' hi hv hn hf =>
    .deleted f v v' fs fs' hi (Agree.mono h hv) hn (AgreeF.mono h hf)
theorem AgreeL.mono {A B : Val → Prop} (h : ∀ u, A u → B u) :
    {xs ys : List Val} → AgreeL A xs ys → AgreeL B xs ys
  | _, _, .nil => .nil
  | _, _, .same x xs ys hl => .same x xs ys (AgreeL.mono h hl)
  | _, _, .item x x' xs ys hx hl => .item x x' xs ys (Agree.mono h hx) (AgreeL.mono h hl)
end

theorem AgreeS.mono {A B : Val → Prop} (h : ∀ u, A u → B u) {xs ys : List Val}
    (hs : AgreeS A xs ys) : AgreeS B xs ys := by
  induction hs with
  | nil => exact .nil
  | cons x y xs ys h1 _ ih => exact .cons x y xs ys (h1.mono h) ih

/-- What is claimed of a visit of `t`. -/
def VisitOk (t : Val) (s : St υ) (r : Except Exc Val) (s' : St υ) : Prop :=
  Eff (fun L => t.isTree = true → Pass t L) s s' ∧ (t.isTree = true → ∀ t', r = .ok t' → AgreeTop (Expanded s s') t t')

section
variable {E : Env υ} {n : Nat} (hv : ∀ t s, M.Post (visit E n t) s (VisitOk t s))
include hv

omit hv in
theorem applyMacro_eff (id : Nat) (name : String) (a : MArgs) (s : St υ)
    (hb : isbound s.world name = some id) :
    M.Post (applyMacro E (visit E n) id name a) s fun _ s' =>
      Frame s s' ∧ ∃ l, fresh s s' = ⟨name, id, a, s.depth, s.recursive, isbound s.world name⟩ :: l ∧
        ∀ e ∈ l, s.depth < e.depth := by
  unfold applyMacro
  rw [M.post_bind, M.post_get]; dsimp only
  rw [M.post_bind, M.post_modify]; dsimp only
  generalize hs1 : ({ s with log := s.log ++ [⟨name, id, a, s.depth, s.recursive, isbound s.world name⟩] } : St υ) = s1
  have f1 : Frame s s1 := by subst hs1; exact frame_rel.log s _ rfl rfl hb hb
  have e1 : fresh s s1 = [⟨name, id, a, s.depth, s.recursive, isbound s.world name⟩] := by subst hs1; simp [fresh]
  rw [M.post_bind]
  refine (runNested_deep _ s1).mono fun r s2 h2 => ?_
  obtain ⟨f2, d2⟩ := h2
  have key : Frame s s2 ∧ ∃ l, fresh s s2 = ⟨name, id, a, s.depth, s.recursive, isbound s.world name⟩ :: l ∧
      ∀ e ∈ l, s.depth < e.depth := by
    refine ⟨f1.trans f2, fresh s1 s2, by rw [fresh_trans f1 f2, e1]; rfl, ?_⟩
    intro e he; rw [← f1.depth]; exact d2 e he
  cases r with
  | error e => exact key
  | ok v =>
    dsimp only
    rw [M.post_bind, M.post_get]; dsimp only
    split
    · rw [M.post_pure]; exact key
    · rw [M.post_throw]; exact key
    · rw [M.post_bind]
      refine (runNested_deep _ s2).mono fun r3 s3 h3 => ?_
      obtain ⟨f3, d3⟩ := h3
      obtain ⟨k1, l, k2, k3⟩ := key
      have : Frame s s3 ∧ ∃ l, fresh s s3 = ⟨name, id, a, s.depth, s.recursive, isbound s.world name⟩ :: l ∧
          ∀ e ∈ l, s.depth < e.depth := by
        refine ⟨k1.trans f3, l ++ fresh s2 s3, by rw [fresh_trans k1 f3, k2]; rfl, ?_⟩
        intro e he
        rcases List.mem_append.mp he with he | he
        · exact k3 e he
        · rw [← k1.depth]; exact d3 e he
      cases r3 with
      | error e => exact this
      | ok _ => dsimp only; rw [M.post_pure]; exact this

omit hv in
/-- The state effect of the part of `expand` that calls the macro, and the entry it makes. -/
theorem expandTry_eff (name : String) (a : MArgs) (s : St υ) :
    M.Post (expandTry E (visit E n) name a) s fun r s' =>
      Frame s s' ∧
      (∀ e ∈ fresh s s', s.depth ≤ e.depth ∧
        (e.depth = s.depth → e.margs = a ∧ e.recursive = s.recursive)) ∧
      (invocations s s' = [] ∨ invocations s s' = [a.invocation]) ∧
      (∀ v, r = .ok v → ∃ e ∈ fresh s s', e.depth = s.depth ∧ e.margs = a) := by
  unfold expandTry
  rw [M.post_bind, M.post_get]; dsimp only
  split
  · rw [M.post_throw]
    exact ⟨frame_refl s, by simp [fresh_self], by simp [invocations_self], by simp⟩
  · rename_i id hb
    rw [M.post_bind]
    refine (applyMacro_eff id name a s hb).mono fun r s' h => ?_
    obtain ⟨f, l, hl, hd⟩ := h
    have h2 : ∀ e ∈ fresh s s', s.depth ≤ e.depth ∧
        (e.depth = s.depth → e.margs = a ∧ e.recursive = s.recursive) := by
      intro e he
      rw [hl] at he
      rcases List.mem_cons.mp he with rfl | he
      · exact ⟨Nat.le_refl _, fun _ => ⟨rfl, rfl⟩⟩
      · have := hd e he
        exact ⟨Nat.le_of_lt this, fun h => by omega⟩
    have h3 : ∃ e ∈ fresh s s', e.depth = s.depth ∧ e.margs = a :=
      ⟨⟨name, id, a, s.depth, s.recursive, isbound s.world name⟩, by rw [hl]; simp, rfl, rfl⟩
    have h4 : invocations s s' = [] ∨ invocations s s' = [a.invocation] := by
      right
      have : l.filter (fun e => decide (e.depth = s.depth)) = [] := by
        rw [List.filter_eq_nil_iff]
        intro e he
        have := hd e he
        simp only [decide_eq_true_eq]
        omega
      simp [invocations, hl, this]
    cases r with
    | error e => exact ⟨f, h2, h4, by simp⟩
    | ok v =>
      dsimp only
      split
      · rw [M.post_pure]; exact ⟨f, h2, h4, fun _ _ => h3⟩
      · rw [M.post_throw]; exact ⟨f, h2, h4, by simp⟩

/-- The same for all of `expand`.  In recursive mode the output is visited too. -/
theorem expand_eff (name : String) (a : MArgs) (s : St υ) (hd : isDone a.invocation = false)
    (hn : a.synt = .name → s.recursive = false) :
    M.Post (expand E (visit E n) name a) s fun r s' =>
      Frame s s' ∧
      (∀ e ∈ fresh s s', EntryOk s.depth s.recursive e) ∧
      (s.recursive = false → invocations s s' = [] ∨ invocations s s' = [a.invocation]) ∧
      (s.recursive = false → ∀ e ∈ fresh s s', e.depth = s.depth → e.margs = a) ∧
      (∀ v, r = .ok v → ∃ e ∈ fresh s s', e.depth = s.depth ∧ e.margs = a) := by
  unfold expand
  rw [M.post_bind, M.post_attempt]
  refine (expandTry_eff name a s).mono fun r s1 h1 => ?_
  obtain ⟨f1, e1, i1, v1⟩ := h1
  have e1' : ∀ e ∈ fresh s s1, EntryOk s.depth s.recursive e := by
    intro e he
    refine ⟨(e1 e he).1, fun hde => ?_⟩
    obtain ⟨h1, h2⟩ := (e1 e he).2 hde
    rw [h1, h2]
    refine ⟨?_, hd⟩
    by_cases hs : a.synt = .name
    · simp [hn hs]
    · simp [hs]
  have m1 : ∀ e ∈ fresh s s1, e.depth = s.depth → e.margs = a := fun e he hd => ((e1 e he).2 hd).1
  cases r with
  | error err =>
    dsimp only
    rw [M.post_throw]
    exact ⟨f1, e1', fun _ => i1, fun _ => m1, by simp⟩
  | ok v =>
    dsimp only
    have ok := v1 v rfl
    unfold visitExpansion
    split
    · rw [M.post_pure]; exact ⟨f1, e1', fun _ => i1, fun _ => m1, fun _ _ => ok⟩
    · rw [M.post_bind, M.post_ofExcept]
      cases liftErr (FixLocations.fixLocations v (locOf a.invocation) FixLocations.Mode.reference) with
      | error e => exact ⟨f1, e1', fun _ => i1, fun _ => m1, by simp⟩
      | ok w =>
        dsimp only
        rw [M.post_bind, M.post_ofExcept]
        cases liftErr (FixCtx.fixCtx w) with
        | error e => exact ⟨f1, e1', fun _ => i1, fun _ => m1, by simp⟩
        | ok x =>
          dsimp only
          rw [M.post_bind, M.post_get]; dsimp only
          split
          · rename_i hrec
            refine (hv x s1).mono fun r2 s2 h2 => ?_
            obtain ⟨h2, -⟩ := h2
            have hb : s.recursive = true := by rw [← f1.recursive]; exact hrec
            refine ⟨f1.trans h2.frame, ?_, fun h => ?_, fun h => ?_, fun _ _ => ?_⟩
            · intro e he
              rw [fresh_trans f1 h2.frame, List.mem_append] at he
              rcases he with he | he
              · exact e1' e he
              · have := h2.entries e he
                rw [f1.depth, f1.recursive] at this; exact this
            · rw [hb] at h; cases h
            · rw [hb] at h; cases h
            · obtain ⟨e, he, h⟩ := ok
              exact ⟨e, by rw [fresh_trans f1 h2.frame]; exact List.mem_append_left _ he, h⟩
          · rw [M.post_pure]; exact ⟨f1, e1', fun _ => i1, fun _ => m1, fun _ _ => ok⟩

/-- `expand` for an invocation of `t` that is not a name. -/
theorem expand_eff' (name : String) (a : MArgs) (t : Val) (ha : a.invocation = t)
    (hd : isDone t = false) (hs : a.synt ≠ .name) (s : St υ) :
    M.Post (expand E (visit E n) name a) s fun r s' =>
      Eff (fun L => t.isTree = true → Pass t L) s s' ∧ (∀ v, r = .ok v → Expanded s s' t) := by
  refine (expand_eff hv name a s (by rw [ha]; exact hd) (fun h => absurd h hs)).mono fun r s' h => ?_
  obtain ⟨f, h1, h0, -, h2⟩ := h
  refine ⟨⟨f, h1, fun hb _ => ?_⟩, fun v hr => ?_⟩
  · rcases h0 hb with h0 | h0
    · rw [h0]; exact .skip t
    · rw [h0, ha]; exact .here t hd
  · obtain ⟨e, he, hd, hm⟩ := h2 v hr
    exact ⟨e, he, hd, by rw [hm, ha]⟩

/-- The items of a list-valued field. -/
theorem genericItems_eff (xs : List Val) (s : St υ) :
    M.Post (genericItems (visit E n) xs) s fun r s' =>
      Eff (PassL (xs.filter Val.isAST)) s s' ∧
      ∀ ys, r = .ok ys → AgreeL (Expanded s s') xs ys := by
  induction xs generalizing s with
  | nil =>
    unfold genericItems
    rw [M.post_pure]
    exact ⟨Eff.refl PassL.nil s, by rintro ys ⟨⟩; exact .nil⟩
  | cons x xs ih =>
    unfold genericItems
    split
    · rename_i hx
      rw [M.post_bind]
      refine (hv x s).mono fun r s1 h1 => ?_
      obtain ⟨h1, a1⟩ := h1
      have hxt : x.isTree = true := by cases x <;> simp_all [Val.isTree, Val.isAST]
      have hcons : ∀ L M, (x.isTree = true → Pass x L) → PassL (xs.filter Val.isAST) M →
          PassL ((x :: xs).filter Val.isAST) (L ++ M) := by
        intro L M h1 h2
        rw [List.filter_cons_of_pos hx]
        exact .cons x _ L M (h1 hxt) h2
      have h1' : Eff (PassL ((x :: xs).filter Val.isAST)) s s1 :=
        h1.mono fun L hL => by have := hcons L [] hL (PassL.skip _); simpa using this
      cases r with
      | error e => exact ⟨h1', by simp⟩
      | ok v =>
        dsimp only
        rw [M.post_bind]
        refine (ih s1).mono fun r2 s2 h2 => ?_
        obtain ⟨h2, a2⟩ := h2
        have h12 := h1.trans h2 hcons
        cases r2 with
        | error e => exact ⟨h12, by simp⟩
        | ok ys =>
          dsimp only
          rw [M.post_pure]
          refine ⟨h12, ?_⟩
          rintro zs ⟨⟩
          have hagree : Agree (Expanded s s1) x v := by
            have := a1 hxt v rfl
            cases x <;> simp_all [AgreeTop, Val.isAST]
          exact .item x v xs ys (hagree.mono fun u => Expanded.left h1.frame h2.frame)
            ((a2 ys rfl).mono fun u => Expanded.right h1.frame h2.frame)
    · rw [M.post_bind]
      refine (ih s).mono fun r2 s2 h2 => ?_
      obtain ⟨h2, a2⟩ := h2
      have h2' : Eff (PassL ((x :: xs).filter Val.isAST)) s s2 := by
        rw [List.filter_cons_of_neg (by assumption)]; exact h2
      cases r2 with
      | error e => exact ⟨h2', by simp⟩
      | ok ys =>
        dsimp only
        rw [M.post_pure]
        refine ⟨h2', ?_⟩
        rintro zs ⟨⟩
        exact .same x xs ys (a2 ys rfl)

/-- The fields of a node. -/
theorem genericFields_eff (c : Cls) (l : Loc) (fs : Fields) (s : St υ) :
    M.Post (genericFields (visit E n) fs) s fun r s' =>
      Eff (PassL (childNodes (.node c l fs))) s s' ∧
      ∀ fs', r = .ok fs' → AgreeF (Expanded s s') fs fs' := by
  induction fs generalizing s with
  | nil =>
    unfold genericFields
    rw [M.post_pure]
    exact ⟨Eff.refl PassL.nil s, by rintro ys ⟨⟩; exact .nil⟩
  | cons p fs ih =>
    obtain ⟨f, v⟩ := p
    have happ : ∀ L M, PassL (childNodes (.node c l [(f, v)])) L → PassL (childNodes (.node c l fs)) M →
        PassL (childNodes (.node c l ((f, v) :: fs))) (L ++ M) := by
      intro L M h1 h2
      have := PassL.append h1 h2
      simpa [childNodes] using this
    cases v with
    | const k =>
      unfold genericFields
      dsimp only
      rw [M.post_bind]
      refine (ih s).mono fun r s1 h1 => ?_
      obtain ⟨h1, a1⟩ := h1
      have h1 : Eff (PassL (childNodes (.node c l ((f, .const k) :: fs)))) s s1 :=
        h1.mono fun L h => happ [] L .nil h
      cases r with
      | error e => exact ⟨h1, by simp⟩
      | ok fs' =>
        dsimp only
        rw [M.post_pure]
        exact ⟨h1, by rintro _ ⟨⟩; exact .const f k fs fs' (a1 fs' rfl)⟩
    | list xs =>
      unfold genericFields
      dsimp only
      rw [M.post_bind]
      refine (genericItems_eff hv xs s).mono fun r s1 h1 => ?_
      obtain ⟨h1, a1⟩ := h1
      have hone : ∀ L, PassL (xs.filter Val.isAST) L → PassL (childNodes (.node c l [(f, .list xs)])) L := by
        intro L h; simpa [childNodes] using h
      have h1' : Eff (PassL (childNodes (.node c l ((f, .list xs) :: fs)))) s s1 :=
        h1.mono fun L h => by have := happ L [] (hone L h) (PassL.skip _); simpa using this
      cases r with
      | error e => exact ⟨h1', by simp⟩
      | ok ys =>
        dsimp only
        rw [M.post_bind]
        refine (ih s1).mono fun r s2 h2 => ?_
        obtain ⟨h2, a2⟩ := h2
        have h12 := h1.trans h2 (fun L M hL hM => happ L M (hone L hL) hM)
        cases r with
        | error e => exact ⟨h12, by simp⟩
        | ok fs' =>
          dsimp only
          rw [M.post_pure]
          refine ⟨h12, ?_⟩
          rintro _ ⟨⟩
          exact .list f xs ys fs fs' ((a1 ys rfl).mono fun u => Expanded.left h1.frame h2.frame)
            ((a2 fs' rfl).mono fun u => Expanded.right h1.frame h2.frame)
    | node c' l' gs =>
      unfold genericFields
      dsimp only
      rw [M.post_bind]
      refine (hv (.node c' l' gs) s).mono fun r s1 h1 => ?_
      obtain ⟨h1, a1⟩ := h1
      have hone : ∀ L, ((Val.node c' l' gs).isTree = true → Pass (.node c' l' gs) L) →
          PassL (childNodes (.node c l [(f, .node c' l' gs)])) L := by
        intro L h
        have := PassL.cons _ [] L [] (h rfl) .nil
        simpa [childNodes] using this
      have h1' : Eff (PassL (childNodes (.node c l ((f, .node c' l' gs) :: fs)))) s s1 :=
        h1.mono fun L h => by have := happ L [] (hone L h) (PassL.skip _); simpa using this
      cases r with
      | error e => exact ⟨h1', by simp⟩
      | ok v' =>
        dsimp only
        rw [M.post_bind]
        refine (ih s1).mono fun r s2 h2 => ?_
        obtain ⟨h2, a2⟩ := h2
        have h12 := h1.trans h2 (fun L M hL hM => happ L M (hone L hL) hM)
        cases r with
        | error e => exact ⟨h12, by simp⟩
        | ok fs' =>
          dsimp only
          rw [M.post_pure]
          refine ⟨h12, ?_⟩
          have g1 : Agree (Expanded s s2) (.node c' l' gs) v' :=
            Agree.mono (fun u => Expanded.left h1.frame h2.frame) (a1 rfl v' rfl)
          have g2 := (a2 fs' rfl).mono fun u => Expanded.right (a := s) h1.frame h2.frame
          rintro _ ⟨⟩
          split
          · rename_i hn; exact .deleted f _ v' fs fs' rfl g1 hn g2
          · rename_i hn; exact .node f _ v' fs fs' rfl g1 (by simpa using hn) g2

/-- `generic_visit` of a node that is not marked as done. -/
theorem genericVisit_eff (c : Cls) (l : Loc) (fs : Fields) (hd : isDone (.node c l fs) = false)
    (s : St υ) :
    M.Post (genericVisit (visit E n) (.node c l fs)) s (VisitOk (.node c l fs) s) := by
  unfold genericVisit
  rw [M.post_bind]
  refine (genericFields_eff hv c l fs s).mono fun r s1 h1 => ?_
  obtain ⟨h1, a1⟩ := h1
  have h1' := h1.mono (R' := fun L => (Val.node c l fs).isTree = true → Pass (.node c l fs) L)
    fun L h _ => .inside _ L hd h
  cases r with
  | error e => exact ⟨h1', fun _ => by simp⟩
  | ok fs' =>
    dsimp only
    rw [M.post_pure]
    refine ⟨h1', fun _ => ?_⟩
    rintro _ ⟨⟩
    exact Agree.node c l fs fs' hd (a1 fs' rfl)

omit hv in
theorem visitOk_error (t : Val) (e : Exc) (s : St υ) : VisitOk t s (.error e) s :=
  ⟨Eff.refl (fun _ => .skip t) s, fun _ => by simp⟩

theorem visitSubscript_eff (c : Cls) (l : Loc) (fs : Fields) (hd : isDone (.node c l fs) = false)
    (s : St υ) :
    M.Post (visitSubscript E (visit E n) (.node c l fs)) s (VisitOk (.node c l fs) s) := by
  unfold visitSubscript
  rw [M.post_bind, M.post_ofExcept]
  split
  · rename_i cand _
    rw [M.post_bind, M.post_ofExcept]
    split
    · rename_i d _
      rw [M.post_bind, M.post_get]; dsimp only
      split
      · rw [M.post_bind, M.post_ofExcept]
        split
        · rename_i p _
          obtain ⟨name, args⟩ := p
          dsimp only
          rw [M.post_bind, M.post_ofExcept]
          split
          · rename_i tree _
            rw [M.post_bind]
            refine (expand_eff' hv name ⟨.expr, tree, some args, none, .node c l fs⟩ _ rfl hd (by simp) s).mono
              fun r s1 h1 => ?_
            obtain ⟨h1, a1⟩ := h1
            cases r with
            | error e => exact ⟨h1, fun _ => by simp⟩
            | ok v =>
              dsimp only
              rw [M.post_pure]
              exact ⟨h1, fun _ t' _ => .replaced _ _ (a1 v rfl)⟩
          · exact visitOk_error _ _ s
        · exact visitOk_error _ _ s
      · exact genericVisit_eff hv c l fs hd s
    · exact visitOk_error _ _ s
  · exact visitOk_error _ _ s

theorem visitWith_eff (c : Cls) (l : Loc) (fs : Fields) (hd : isDone (.node c l fs) = false)
    (s : St υ) :
    M.Post (visitWith E (visit E n) (.node c l fs)) s (VisitOk (.node c l fs) s) := by
  unfold visitWith
  rw [M.post_bind, M.post_ofExcept]
  split
  · rename_i items _
    rw [M.post_bind, M.post_get]; dsimp only
    rw [M.post_bind, M.post_ofExcept]
    split
    · rename_i ds _
      split
      · exact genericVisit_eff hv c l fs hd s
      · rename_i before item _ after _
        rw [M.post_bind, M.post_ofExcept]
        split
        · rename_i cand _
          rw [M.post_bind, M.post_ofExcept]
          split
          · rename_i p _
            obtain ⟨name, args⟩ := p
            dsimp only
            rw [M.post_bind, M.post_ofExcept]
            split
            · rename_i body _
              rw [M.post_bind]
              refine (expand_eff' hv name _ (.node c l fs) rfl hd (by simp) s).mono fun r s1 h1 => ?_
              obtain ⟨h1, a1⟩ := h1
              cases r with
              | error e => exact ⟨h1, fun _ => by simp⟩
              | ok v =>
                dsimp only
                rw [M.post_ofExcept]
                exact ⟨h1, fun _ t' _ => .replaced _ _ (a1 v rfl)⟩
            · exact visitOk_error _ _ s
          · exact visitOk_error _ _ s
        · exact visitOk_error _ _ s
    · exact visitOk_error _ _ s
  · exact visitOk_error _ _ s

theorem visitDecorated_eff (c : Cls) (l : Loc) (fs : Fields) (hd : isDone (.node c l fs) = false)
    (s : St υ) :
    M.Post (visitDecorated E (visit E n) (.node c l fs)) s (VisitOk (.node c l fs) s) := by
  unfold visitDecorated
  rw [M.post_bind, M.post_ofExcept]
  split
  · rename_i items _
    rw [M.post_bind, M.post_get]; dsimp only
    rw [M.post_bind, M.post_ofExcept]
    split
    · rename_i ds _
      split
      · exact genericVisit_eff hv c l fs hd s
      · rename_i before item _ after _
        rw [M.post_bind, M.post_ofExcept]
        split
        · rename_i p _
          obtain ⟨name, args⟩ := p
          dsimp only
          rw [M.post_bind]
          refine (expand_eff' hv name _ (.node c l fs) rfl hd (by simp) s).mono fun r s1 h1 => ?_
          obtain ⟨h1, a1⟩ := h1
          cases r with
          | error e => exact ⟨h1, fun _ => by simp⟩
          | ok v =>
            dsimp only
            rw [M.post_ofExcept]
            exact ⟨h1, fun _ t' _ => .replaced _ _ (a1 v rfl)⟩
        · exact visitOk_error _ _ s
    · exact visitOk_error _ _ s
  · exact visitOk_error _ _ s

theorem visitName_eff (c : Cls) (l : Loc) (fs : Fields) (hd : isDone (.node c l fs) = false)
    (s : St υ) :
    M.Post (visitName E (visit E n) (.node c l fs)) s (VisitOk (.node c l fs) s) := by
  unfold visitName
  rw [M.post_bind, M.post_ofExcept]
  split
  · rename_i i _
    rw [M.post_bind, M.post_get]; dsimp only
    split
    · split
      · rw [M.post_pure]; exact ⟨Eff.refl (fun _ => .skip _) s, fun _ => by rintro _ ⟨⟩; exact .refl _⟩
      · rename_i name _
        rw [M.post_bind]
        unfold withMode
        rw [M.post_bracket]
        refine (expand_eff hv name ⟨.name, .node c l fs, none, none, .node c l fs⟩ _ hd
          (fun _ => rfl)).mono fun r s1 h1 => ?_
        obtain ⟨f1, e1, i1, m1, v1⟩ := h1
        have f1' : Frame s { s1 with recursive := s.recursive } := frame_rel.mode s s1 false f1
        have h1 : Eff (fun L => (Val.node c l fs).isTree = true → Pass (.node c l fs) L) s { s1 with recursive := s.recursive } := by
          refine ⟨f1', fun e he => ?_, fun _ _ => ?_⟩
          · obtain ⟨g1, g2⟩ := e1 e he
            refine ⟨g1, fun hde => ⟨?_, (g2 hde).2⟩⟩
            rw [(g2 hde).1, m1 rfl e he hde]; simp
          · rcases i1 rfl with i1 | i1
            · have : invocations s { s1 with recursive := s.recursive } = [] := i1
              rw [this]; exact .skip _
            · have : invocations s { s1 with recursive := s.recursive } = [.node c l fs] := i1
              rw [this]; exact .here _ hd
        cases r with
        | error e => exact ⟨h1, fun _ => by simp⟩
        | ok v =>
          dsimp only
          have hx : Expanded s { s1 with recursive := s.recursive } (.node c l fs) := by
            obtain ⟨e, he, hd, hm⟩ := v1 v rfl
            exact ⟨e, he, hd, by rw [hm]⟩
          split
          · rw [M.post_pure]; exact ⟨h1, fun _ t' _ => .replaced _ _ hx⟩
          · split
            · rw [M.post_pure]; exact ⟨h1, fun _ t' _ => .replaced _ _ hx⟩
            · rw [M.post_bind, M.post_get]; dsimp only
              split
              · rename_i hrec
                refine (hv v _).mono fun r2 s2 h2 => ?_
                obtain ⟨h2, -⟩ := h2
                refine ⟨⟨f1'.trans h2.frame, fun e he => ?_, fun hb => ?_⟩,
                  fun _ t' _ => .replaced _ _ (hx.left f1' h2.frame)⟩
                · rw [fresh_trans f1' h2.frame, List.mem_append] at he
                  rcases he with he | he
                  · exact h1.entries e he
                  · have := h2.entries e he
                    rw [f1'.depth] at this; exact this
                · rw [hb] at hrec; cases hrec
              · rw [M.post_pure]; exact ⟨h1, fun _ t' _ => .replaced _ _ hx⟩
    · rw [M.post_pure]; exact ⟨Eff.refl (fun _ => .skip _) s, fun _ => by rintro _ ⟨⟩; exact .refl _⟩
  · exact visitOk_error _ _ s

theorem visitElts_eff (xs : List Val) (hxs : xs.all Val.isAST = true) (s : St υ) :
    M.Post (visitElts (visit E n) xs) s fun r s' =>
      Eff (PassL xs) s s' ∧ ∀ ys, r = .ok ys → AgreeS (Expanded s s') xs ys := by
  induction xs generalizing s with
  | nil =>
    unfold visitElts
    rw [M.post_pure]
    exact ⟨Eff.refl PassL.nil s, by rintro ys ⟨⟩; exact .nil⟩
  | cons x xs ih =>
    simp only [List.all_cons, Bool.and_eq_true] at hxs
    unfold visitElts
    rw [M.post_bind]
    refine (hv x s).mono fun r s1 h1 => ?_
    obtain ⟨h1, a1⟩ := h1
    have hxt : x.isTree = true := by have := hxs.1; cases x <;> simp_all [Val.isTree, Val.isAST]
    have hcons : ∀ L M, (x.isTree = true → Pass x L) → PassL xs M → PassL (x :: xs) (L ++ M) :=
      fun L M h1 h2 => .cons x _ L M (h1 hxt) h2
    have h1' : Eff (PassL (x :: xs)) s s1 :=
      h1.mono fun L hL => by have := hcons L [] hL (PassL.skip _); simpa using this
    cases r with
    | error e => exact ⟨h1', by simp⟩
    | ok v =>
      dsimp only
      rw [M.post_bind]
      refine (ih hxs.2 s1).mono fun r2 s2 h2 => ?_
      obtain ⟨h2, a2⟩ := h2
      have h12 := h1.trans h2 hcons
      cases r2 with
      | error e => exact ⟨h12, by simp⟩
      | ok ys =>
        dsimp only
        rw [M.post_pure]
        refine ⟨h12, ?_⟩
        rintro zs ⟨⟩
        have hagree : Agree (Expanded s s1) x v := by
          have hx := hxs.1
          have := a1 hxt v rfl
          cases x <;> simp_all [AgreeTop, Val.isAST]
        exact .cons x v xs ys (hagree.mono fun u => Expanded.left h1.frame h2.frame)
          ((a2 ys rfl).mono fun u => Expanded.right h1.frame h2.frame)

theorem visitNode_eff (t : Val) (ht : t.isAST = true) (hd : isDone t = false) (s : St υ) :
    M.Post (visitNode E (visit E n) t) s (VisitOk t s) := by
  unfold visitNode
  split
  · exact visitSubscript_eff hv _ _ _ hd s
  · exact visitWith_eff hv _ _ _ hd s
  · exact visitDecorated_eff hv _ _ _ hd s
  · exact visitDecorated_eff hv _ _ _ hd s
  · exact visitName_eff hv _ _ _ hd s
  · cases t with
    | node c l fs => exact genericVisit_eff hv _ _ _ hd s
    | const c => cases ht
    | list xs => cases ht

end

/-- Visiting a list whose items are not all nodes. -/
theorem visitElts_eff_any {E : Env υ} {n : Nat} (hv : ∀ t s, M.Post (visit E n t) s (VisitOk t s))
    (xs : List Val) (s : St υ) :
    M.Post (visitElts (visit E n) xs) s fun _ s' => Eff (fun _ => True) s s' := by
  induction xs generalizing s with
  | nil => unfold visitElts; rw [M.post_pure]; exact Eff.refl trivial s
  | cons x xs ih =>
    unfold visitElts
    rw [M.post_bind]
    refine (hv x s).mono fun r s1 h1 => ?_
    have h1' : Eff (fun _ => True) s s1 := h1.1.mono fun _ _ => trivial
    cases r with
    | error e => exact h1'
    | ok v =>
      dsimp only
      rw [M.post_bind]
      refine (ih s1).mono fun r2 s2 h2 => ?_
      cases r2 with
      | error e => exact h1'.trans h2 fun _ _ _ _ => trivial
      | ok ys => dsimp only; rw [M.post_pure]; exact h1'.trans h2 fun _ _ _ _ => trivial

/-- What a visit does. -/
theorem visit_eff (E : Env υ) (n : Nat) : ∀ (t : Val) (s : St υ), M.Post (visit E n t) s (VisitOk t s) := by
  induction n with
  | zero => intro t s; exact M.post_diverge
  | succ n ih =>
    intro t s
    unfold visit visitBody
    rw [M.post_bind, M.post_get]; dsimp only
    have same : VisitOk t s (.ok t) s := by
      refine ⟨Eff.refl (fun _ => .skip t) s, fun _ => ?_⟩
      rintro _ ⟨⟩
      cases t with
      | list xs => exact Or.inl rfl
      | node c l fs => exact Agree.refl _
      | const c => exact Agree.refl _
    split
    · rw [M.post_pure]; exact same
    · rename_i hc
      simp only [Bool.or_eq_true, not_or, Bool.not_eq_true] at hc
      split
      · rw [M.post_pure]; exact same
      · rename_i xs
        rw [M.post_bind]
        by_cases hx : xs.all Val.isAST = true
        · refine (visitElts_eff ih xs hx s).mono fun r s1 h1 => ?_
          obtain ⟨h1, a1⟩ := h1
          have h1' : Eff (fun L => (Val.list xs).isTree = true → Pass (.list xs) L) s s1 :=
            h1.mono fun L h _ => .inside _ L rfl (by
              have : childNodes (.list xs) = xs := List.filter_eq_self.mpr (List.all_eq_true.mp hx)
              rw [this]; exact h)
          cases r with
          | error e => exact ⟨h1', fun _ => by simp⟩
          | ok ys =>
            dsimp only
            rw [M.post_pure]
            refine ⟨h1', fun _ => ?_⟩
            rintro _ ⟨⟩
            exact Or.inr ⟨ys, a1 ys rfl, rfl⟩
        · refine (visitElts_eff_any ih xs s).mono fun r s1 h1 => ?_
          have h1' : Eff (fun L => (Val.list xs).isTree = true → Pass (.list xs) L) s s1 :=
            h1.mono fun L _ h => absurd h hx
          cases r with
          | error e => exact ⟨h1', fun _ => by simp⟩
          | ok ys =>
            dsimp only
            rw [M.post_pure]
            exact ⟨h1', fun h => absurd h hx⟩
      · rename_i hnone hlist
        cases t with
        | node c l fs => exact visitNode_eff ih _ rfl hc.2 s
        | list xs => exact absurd rfl (hlist xs)
        | const c =>
          have : visitNode E (visit E n) (Val.const c) = M.throw (Exc.py .attributeError) := rfl
          rw [this, M.post_throw]; exact visitOk_error _ _ s

end Mcpyrate.Expander
