import Verif.Lemmas.Like
import Verif.Spec.Order
/-
One step of the expansion of an invocation, in recursive mode.
-/
namespace Mcpyrate.Expander
open Py

variable {υ : Type} {E : Env υ}

theorem bind_ok {α β : Type} {m : X υ α} {f : α → X υ β} {s s' : St υ} {b : β}
    (h : (m >>= f) s = some (.ok b, s')) :
    ∃ a s1, m s = some (.ok a, s1) ∧ f a s1 = some (.ok b, s') := by
  change M.bind m f s = _ at h
  simp only [M.bind] at h
  cases hm : m s with
  | none => rw [hm] at h; cases h
  | some p =>
    obtain ⟨r, s1⟩ := p
    rw [hm] at h
    cases r with
    | error e => cases h
    | ok a => exact ⟨a, s1, rfl, h⟩

theorem ofExcept_ok {α : Type} {x : Except Exc α} {s s' : St υ} {b : α}
    (h : M.ofExcept x s = some (.ok b, s')) : x = .ok b ∧ s' = s := by
  cases x with
  | error e => cases h
  | ok a => cases h; exact ⟨rfl, rfl⟩

theorem bracket_some {α : Type} {en : St υ → St υ} {ex : St υ → St υ → St υ} {m : X υ α} {s s' : St υ}
    {r : Except Exc α} (h : M.bracket en ex m s = some (r, s')) :
    ∃ s0, m (en s) = some (r, s0) ∧ s' = ex s s0 := by
  simp only [M.bracket] at h
  cases hm : m (en s) with
  | none => rw [hm] at h; cases h
  | some p => rw [hm] at h; obtain ⟨x, y⟩ := p; cases h; exact ⟨_, rfl, rfl⟩

theorem liftErr_ok {α : Type} {x : Except Err α} {b : α} (h : liftErr x = .ok b) : x = .ok b := by
  cases x with
  | error e => cases h
  | ok a => cases h; rfl

theorem checkRet_shape {r : Ret} {v : Val} (h : checkRet r = some v) : v = .none ∨ v.isTree = true := by
  unfold checkRet at h
  split at h
  · cases h; exact .inl rfl
  · cases h; exact .inr rfl
  · split at h
    · rename_i hx; cases h; exact .inr hx
    · cases h
  · cases h; exact .inr rfl
  · cases h; exact .inr rfl
  · cases h
  · cases h

/-- The entry that `applyMacro` writes. -/
def entry (k : String) (id : Nat) (a : MArgs) (s : St υ) : App :=
  ⟨k, id, a, s.depth, s.recursive, isbound s.world k⟩

/-- The state in which the macro function starts. -/
def enterMacro (k : String) (id : Nat) (a : MArgs) (s : St υ) : St υ :=
  { s with log := s.log ++ [entry k id a s], depth := s.depth + 1 }

theorem applied_trans {a b c : St υ} (h1 : Frame a b) (h2 : Frame b c) :
    applied a c = applied a b ++ applied b c := by
  simp [applied, fresh_trans h1 h2, h1.depth]

/-- What happened if `applyMacro` returned and no hook is installed. -/
theorem applyMacro_inv {n : Nat} {id : Nat} {k : String} {a : MArgs} {s s1 : St υ} {ret : Ret}
    (hh : s.hook = none) (hb : isbound s.world k = some id)
    (h : applyMacro E (visit E n) id k a s = some (.ok ret, s1)) :
    ∃ s0, run (visit E n) ((E.macros id).fn a) (enterMacro k id a s) = some (.ok ret, s0) ∧
      s1 = { s0 with depth := s.depth } ∧ Frame s s1 ∧ applied s s1 = [(k, id)] := by
  unfold applyMacro at h
  rw [run_get] at h
  obtain ⟨_, s2, h2, h⟩ := bind_ok h
  cases h2
  obtain ⟨ret', s3, h3, h⟩ := bind_ok h
  obtain ⟨f3, d3⟩ := runNested_deep (E := E) (n := n) _ _ _ _ h3
  rw [run_get, f3.hook] at h
  have hh2 : ({ s with log := s.log ++ [entry k id a s] } : St υ).hook = none := hh
  have h' : (some (.ok ret', s3) : Option (Except Exc Ret × St υ)) = some (.ok ret, s1) := by
    revert h; simp only [hh]; exact fun x => x
  cases h'
  have f1 : Frame s { s with log := s.log ++ [entry k id a s] } :=
    frame_rel.log s _ rfl rfl hb hb
  obtain ⟨s0, hr, hs1⟩ := bracket_some h3
  refine ⟨s0, hr, hs1, f1.trans f3, ?_⟩
  rw [applied_trans f1 f3]
  have e1 : applied s { s with log := s.log ++ [entry k id a s] } = [(k, id)] := by
    simp [applied, fresh, entry]
  have e2 : applied { s with log := s.log ++ [entry k id a s] } s1 = [] := by
    simp only [applied, List.map_eq_nil_iff, List.filter_eq_nil_iff, decide_eq_true_eq]
    intro e he hd
    exact absurd hd (Nat.ne_of_gt (d3 e he))
  rw [e1, e2]; rfl

/-- The expansion of an invocation: the macro function runs, and what it returns is fixed up and
visited. -/
theorem expand_inv {n : Nat} {id : Nat} {k : String} {a : MArgs} {s s' : St υ} {r : Val}
    (hh : s.hook = none) (hrec : s.recursive = true) (hb : isbound s.world k = some id)
    (h : expand E (visit E n) k a s = some (.ok r, s')) :
    ∃ ret v s0 s1, run (visit E n) ((E.macros id).fn a) (enterMacro k id a s) = some (.ok ret, s0) ∧
      checkRet ret = some v ∧ s1 = { s0 with depth := s.depth } ∧ Frame s s1 ∧
      applied s s' = (k, id) :: applied s1 s' ∧
      ((v = .none ∧ r = .none ∧ s' = s1) ∨
        ∃ e2, v.isTree = true ∧ (∃ m, Like v m ∧ Like m e2) ∧ visit E n e2 s1 = some (.ok r, s')) := by
  unfold expand at h
  obtain ⟨r1, s1, h1, h⟩ := bind_ok h
  cases r1 with
  | error e => cases h
  | ok v =>
    have h1' : expandTry E (visit E n) k a s = some (.ok v, s1) := by
      simp only [M.attempt] at h1
      cases ht : expandTry E (visit E n) k a s with
      | none => rw [ht] at h1; cases h1
      | some p => rw [ht] at h1; obtain ⟨x, y⟩ := p; cases h1; rfl
    unfold expandTry at h1'
    rw [run_get, hb] at h1'
    obtain ⟨ret, s2, h2, h3⟩ := bind_ok h1'
    cases hc : checkRet ret with
    | none => rw [hc] at h3; cases h3
    | some v' =>
      rw [hc] at h3; cases h3
      obtain ⟨s0, hr, hs1, f1, ha⟩ := applyMacro_inv hh hb h2
      have fr : Frame s1 s' := visitExpansion_pres frame_rel.toStep (visit_pres frame_rel E.all_true n) _ _ _ _ _ h
      refine ⟨ret, v, s0, s1, hr, hc, hs1, f1, by rw [applied_trans f1 fr, ha]; rfl, ?_⟩
      dsimp only at h
      unfold visitExpansion at h
      cases hv : v.isNone with
      | true =>
        rw [hv] at h
        have h' : (some (.ok v, s1) : Option (Except Exc Val × St υ)) = some (.ok r, s') := h
        cases h'
        have : r = Val.none := by
          cases r with
          | const c => cases c <;> first | rfl | (simp [Val.isNone] at hv)
          | list | node => cases hv
        subst this
        exact .inl ⟨rfl, rfl, rfl⟩
      | false =>
        rw [hv] at h
        simp only [Bool.false_eq_true, if_false] at h
        obtain ⟨e1, s3, h4, h6⟩ := bind_ok h
        obtain ⟨h4', hs3⟩ := ofExcept_ok h4
        obtain ⟨e2, s4, h5, h7⟩ := bind_ok h6
        obtain ⟨h5', hs4⟩ := ofExcept_ok h5
        rw [hs4, hs3] at h7
        have ht : v.isTree = true := by
          rcases checkRet_shape hc with rfl | ht
          · cases hv
          · exact ht
        rw [run_get, f1.recursive, hrec] at h7
        exact .inr ⟨e2, ht, fixed_like ht (liftErr_ok h4') (liftErr_ok h5'), h7⟩

/-- The same for a visit of a block or decorator invocation. -/
theorem visit_inv {n : Nat} {t c : Val} {id : Nat} {k : String} {a : MArgs} {s s' : St υ} {r : Val}
    (hw : WellFormed t) (hi : Invokes E s.world t k id a c)
    (hs : a.synt = .block ∨ a.synt = .decorator)
    (h : visit E (n + 1) t s = some (.ok r, s')) :
    ∃ r', expand E (visit E n) k a s = some (.ok r', s') := by
  obtain ⟨h1, h2, h3⟩ := invokes_node hi
  rw [visit_node h1 h2 (bound_noBindings h3)] at h
  by_cases hc : BadCall c
  · rw [(visitNode_invokes (vis := visit E n) hw hi).2.2 hc] at h
    cases h
  · have := (visitNode_invokes (vis := visit E n) hw hi).2.1 hc
    rw [this] at h
    obtain ⟨r', s1, h4, h5⟩ := bind_ok h
    unfold expandIn at h4
    rw [if_neg (by rcases hs with hs | hs <;> rw [hs] <;> decide)] at h4
    unfold afterExpand at h5
    rcases hs with hs | hs <;> rw [hs] at h5
    · obtain ⟨-, rfl⟩ := ofExcept_ok h5; exact ⟨r', h4⟩
    · obtain ⟨-, rfl⟩ := ofExcept_ok h5; exact ⟨r', h4⟩

/-! ### popping items -/
theorem lookup_setF {fs : Fields} {f : F} {v : Val} (h : (fs.lookup f).isSome = true) :
    (setF fs f v).lookup f = some v := by
  induction fs with
  | nil => cases h
  | cons p r ih =>
    obtain ⟨g, w⟩ := p
    by_cases hg : g = f
    · subst hg; simp [setF]
    · have hb : (f == g) = false := by simpa using fun e => hg e.symm
      simp only [List.lookup_cons, hb] at h
      simp only [setF, List.map_cons, if_neg hg, List.lookup_cons, hb]
      exact ih h

theorem lookup_setF_ne {fs : Fields} {f g : F} {v : Val} (h : g ≠ f) :
    (setF fs f v).lookup g = fs.lookup g := by
  induction fs with
  | nil => rfl
  | cons p r ih =>
    obtain ⟨g', w⟩ := p
    have ih' : (r.map fun (x : F × Val) => if x.1 = f then (x.1, v) else (x.1, x.2)).lookup g = r.lookup g := ih
    by_cases hg : g' = f
    · subst hg
      have hb : (g == g') = false := by simpa using h
      simp only [setF, List.map_cons, if_true, List.lookup_cons, hb]
      exact ih'
    · simp only [setF, List.map_cons, if_neg hg, List.lookup_cons]
      cases g == g' with
      | true => rfl
      | false => exact ih'

theorem withField_get {t v w : Val} {f : F} (h : t.get? f = some w) : (withField t f v).get? f = some v := by
  cases t with
  | const | list => cases h
  | node c l fs =>
    exact lookup_setF (by
      have : fs.lookup f = some w := h
      rw [this]; rfl)

theorem withField_get_ne {t v : Val} {f g : F} (h : g ≠ f) : (withField t f v).get? g = t.get? g := by
  cases t with
  | const | list => rfl
  | node c l fs => exact lookup_setF_ne h

theorem withField_isK {t v : Val} {f : F} (k : K) : (withField t f v).isK k = t.isK k := by
  cases t with
  | const | list => rfl
  | node c l fs => cases c <;> rfl

theorem withField_child {t : Val} {f : F} {xs ys : List Val} (h : t.get? f = some (.list xs))
    (hs : ∀ y ∈ ys, y ∈ xs) {u : Val} (hu : u ∈ childNodes (withField t f (.list ys))) :
    u ∈ childNodes t := by
  cases t with
  | const | list => cases h
  | node c l fs =>
    simp only [withField, setF, childNodes, List.mem_flatMap, List.mem_map] at hu
    obtain ⟨p, ⟨⟨g, v⟩, hm, hp⟩, hu⟩ := hu
    by_cases hg : g = f
    · simp only [hg, if_true] at hp
      subst hp
      rw [List.mem_filter] at hu
      exact get?_list_child h (hs u hu.1) hu.2
    · simp only [if_neg hg] at hp
      subst hp
      simp only [childNodes, List.mem_flatMap]
      exact ⟨_, hm, hu⟩

theorem WellFormed.withField {t : Val} {f : F} {xs ys : List Val} (ht : WellFormed t)
    (h : t.get? f = some (.list xs)) (hs : ∀ y ∈ ys, y ∈ xs)
    (hok : fieldsOk (withField t f (.list ys)) = true) : WellFormed (withField t f (.list ys)) := by
  intro v hv
  cases hv with
  | refl => exact hok
  | step hc hr => exact ht.child (withField_child h hs (child_mem hc)) v hr

/-! ### the macros among the items -/
theorem Macros.world {w w' : World υ} (hb : ∀ k, isbound w' k = isbound w k) {cs : List Val}
    {L : List (String × Nat)} (h : Macros E w cs L) : Macros E w' cs L := by
  induction h with
  | nil => exact .nil
  | skip hn _ ih =>
    refine .skip ?_ ih
    rintro ⟨k, as, id, h1, h2, h3, h4⟩
    exact hn ⟨k, as, id, h1, h2, hb k ▸ h3, h4⟩
  | take hc ha _ ih => exact .take hc ⟨ha.1, (hb _).trans ha.2.1, ha.2.2⟩ ih

theorem Macros.like {w : World υ} {cs cs' : List Val} {L : List (String × Nat)} (h : Macros E w cs L)
    (hl : LikeL cs cs') : Macros E w cs' L := by
  induction h generalizing cs' with
  | nil => cases hl; exact .nil
  | skip hn h1 ih =>
    cases hl with
    | same hl => exact .skip hn (ih hl)
    | cons hx hl => exact .skip (fun h => hn (hx.names.mp h)) (ih hl)
  | take hc ha h1 ih =>
    cases hl with
    | same hl => exact .take hc ha (ih hl)
    | cons hx hl =>
      obtain ⟨as', hc', hlen⟩ := hx.candidate hc
      exact .take hc' (ha.length hlen) (ih hl)

theorem Macros.first {w : World υ} {cs : List Val} {k : String} {id : Nat} {L : List (String × Nat)}
    (h : Macros E w cs ((k, id) :: L)) :
    ∃ before c after as, cs = before ++ c :: after ∧ (∀ x ∈ before, ¬ Names E w x) ∧ Candidate c k as ∧
      Accepts E w k as id ∧ Macros E w (before ++ after) L := by
  induction cs with
  | nil => cases h
  | cons x xs ih =>
    cases h with
    | skip hn h =>
      obtain ⟨b, c, a, as, rfl, h1, h2, h3, h4⟩ := ih h
      refine ⟨x :: b, c, a, as, rfl, ?_, h2, h3, .skip hn h4⟩
      intro y hy
      rcases List.mem_cons.mp hy with rfl | hy
      · exact hn
      · exact h1 y hy
    | take hc ha h => exact ⟨[], x, xs, _, rfl, by simp, hc, ha, h⟩

theorem LikeL.append {a b c d : List Val} (h2 : LikeL c d) : LikeL a b → LikeL (a ++ c) (b ++ d)
  | .nil => h2
  | .same h => .same (LikeL.append h2 h)
  | .cons hx h => .cons hx (LikeL.append h2 h)

theorem LikeL.reverse {a b : List Val} : LikeL a b → LikeL a.reverse b.reverse
  | .nil => .nil
  | .same h => by simp only [List.reverse_cons]; exact LikeL.append (LikeL.refl _) h.reverse
  | .cons hx h => by simp only [List.reverse_cons]; exact LikeL.append (.cons hx .nil) h.reverse

/-- Context expressions of like items. -/
theorem LikeL.contexts {xs ys : List Val} : LikeL xs ys →
    LikeL (xs.filterMap (·.get? .context_expr)) (ys.filterMap (·.get? .context_expr))
  | .nil => .nil
  | .same (x := x) h => by
    cases hx : x.get? .context_expr with
    | none => simp only [List.filterMap_cons, hx]; exact h.contexts
    | some c => simp only [List.filterMap_cons, hx]; exact .same h.contexts
  | .cons (x := x) (y := y) hxy h => by
    cases hx : x.get? .context_expr with
    | some c =>
      obtain ⟨c', hc', hl⟩ := hxy.get (by decide) hx
      simp only [List.filterMap_cons, hx, hc']; exact .cons hl h.contexts
    | none =>
      cases hy : y.get? .context_expr with
      | some c =>
        obtain ⟨c', hc', hl⟩ := hxy.get' (by decide) hy
        rw [hx] at hc'; cases hc'
      | none => simp only [List.filterMap_cons, hx, hy]; exact h.contexts

theorem contexts_like {t u : Val} (h : Like t u) : LikeL (contextExprs t) (contextExprs u) := by
  unfold contextExprs
  cases hi : t.get? .items with
  | none =>
    cases hu : u.get? .items with
    | none => exact .nil
    | some v => obtain ⟨v', h1, -⟩ := h.get' (by decide) hu; rw [hi] at h1; cases h1
  | some v =>
    obtain ⟨v', h1, h2⟩ := h.get (by decide) hi
    rw [h1]
    cases h2 with
    | const => exact .nil
    | node => exact .nil
    | list hl => exact hl.contexts

theorem decorators_like {t u : Val} (h : Like t u) : LikeL (decorators t) (decorators u) := by
  unfold decorators
  cases hi : t.get? .decorator_list with
  | none =>
    cases hu : u.get? .decorator_list with
    | none => exact .nil
    | some v => obtain ⟨v', h1, -⟩ := h.get' (by decide) hu; rw [hi] at h1; cases h1
  | some v =>
    obtain ⟨v', h1, h2⟩ := h.get (by decide) hi
    rw [h1]
    cases h2 with
    | const => exact .nil
    | node => exact .nil
    | list hl => exact hl

/-- A visit of a suite of one statement. -/
theorem visit_single {n : Nat} {w : Val} {s s' : St υ} {r : Val} (hb : noBindings s.world = false)
    (h : visit E n (.list [w]) s = some (.ok r, s')) : ∃ m r', visit E m w s = some (.ok r', s') := by
  cases n with
  | zero => cases h
  | succ m =>
    change visitBody E (visit E m) (.list [w]) s = _ at h
    unfold visitBody at h
    rw [run_get] at h
    simp only [hb, isDone, Bool.or_self, Bool.false_eq_true, if_false] at h
    obtain ⟨ys, s1, h1, h2⟩ := bind_ok h
    cases h2
    unfold visitElts at h1
    obtain ⟨y, s2, h3, h4⟩ := bind_ok h1
    obtain ⟨ys, s3, h5, h6⟩ := bind_ok h4
    cases h5; cases h6
    exact ⟨m, y, h3⟩

theorem filterMap_split {f : Val → Option Val} {xs before after : List Val} {c : Val}
    (h : xs.filterMap f = before ++ c :: after) :
    ∃ b i a, xs = b ++ i :: a ∧ b.filterMap f = before ∧ f i = some c ∧ a.filterMap f = after := by
  obtain ⟨l1, l2, rfl, h1, h2⟩ := List.filterMap_eq_append_iff.mp h
  obtain ⟨l3, i, l4, rfl, h3, h4, h5⟩ := List.filterMap_eq_cons_iff.mp h2
  refine ⟨l1 ++ l3, i, l4, by simp, ?_, h4, h5⟩
  rw [List.filterMap_append, h1, List.filterMap_eq_nil_iff.mpr h3, List.append_nil]

theorem block_order (L : List (String × Nat)) (n : Nat) (t : Val) (s s' : St υ) (r : Val)
    (hw : WellFormed t) (hk : t.isK .With = true) (hbody : (t.get? .body).isSome = true)
    (hL : Macros E s.world (contextExprs t) L) (hkeep : ∀ p ∈ L, KeepsItems E p.2)
    (hh : s.hook = none) (hrec : s.recursive = true) (h : visit E n t s = some (.ok r, s')) :
    ∃ rest, applied s s' = L ++ rest := by
  induction L generalizing n t s r with
  | nil => exact ⟨_, rfl⟩
  | cons p L ih =>
    obtain ⟨k, id⟩ := p
    obtain ⟨before, c, after, as, hcs, hbn, hc, ha, hL'⟩ := hL.first
    obtain ⟨items, hi, hit⟩ := hw.withItems hk
    have hce : contextExprs t = items.filterMap (·.get? .context_expr) := by
      unfold contextExprs; rw [hi]
    rw [hce] at hcs
    obtain ⟨b, i, a, rfl, rfl, hic, rfl⟩ := filterMap_split hcs
    obtain ⟨body, hbody'⟩ := Option.isSome_iff_exists.mp hbody
    have hinv := Invokes.block (E := E) (w := s.world) hk hi (fun j hj c hc' hn =>
      hbn c (List.mem_filterMap.mpr ⟨j, hj, hc'⟩) hn) hic hc ha hbody'
    cases n with
    | zero => cases h
    | succ n =>
      obtain ⟨r', hexp⟩ := visit_inv hw hinv (.inl rfl) h
      obtain ⟨ret, v, s0, s1, hrun, hret, hs1, f1, happ, hres⟩ := expand_inv hh hrec ha.2.1 hexp
      cases L with
      | nil => exact ⟨_, happ⟩
      | cons q L =>
        obtain ⟨hsame, hkeeps⟩ := hkeep (k, id) (by simp) n _ _ _ _ rfl hrun
        have hne : b ++ a ≠ [] := by
          intro he
          have : b = [] ∧ a = [] := List.append_eq_nil_iff.mp he
          rw [this.1, this.2] at hL'
          cases hL'
        have hsub : ∀ y ∈ b ++ a, y ∈ b ++ i :: a := by
          intro y hy
          rcases List.mem_append.mp hy with hy | hy
          · exact List.mem_append_left _ hy
          · exact List.mem_append_right _ (List.mem_cons_of_mem _ hy)
        have hget := withField_get (v := .list (b ++ a)) hi
        have hwf : WellFormed (withField t .items (.list (b ++ a))) := by
          refine hw.withField hi hsub ?_
          have hself := hw.self
          obtain ⟨l, fs, rfl⟩ := isK_eq hk
          change fieldsOk (.node (.py .With) l (setF fs .items (.list (b ++ a)))) = true
          unfold fieldsOk at hself ⊢
          have hi' : (Val.node (.py .With) l fs).get? .items = some (.list (b ++ i :: a)) := hi
          rw [hi'] at hself
          have hget' : (Val.node (.py .With) l (setF fs .items (.list (b ++ a)))).get? .items =
            some (.list (b ++ a)) := hget
          rw [hget']
          rw [List.all_eq_true] at hself ⊢
          intro y hy; exact hself y (hsub y hy)
        obtain ⟨w', hret', hk', hitems', hb', hwf'⟩ := hkeeps (withField t .items (.list (b ++ a)))
          (by dsimp only; rw [if_neg hne]) (by rw [withField_isK]; exact hk) hwf
          (by rw [withField_get_ne (by decide)]; exact hbody)
        subst hret'
        have hv : v = .list [w'] := by
          have : ∃ l fs, w' = .node (.py .With) l fs := isK_eq hk'
          obtain ⟨l, fs, rfl⟩ := this
          have : checkRet (.val (.list [.node (.py .With) l fs])) = some (.list [.node (.py .With) l fs]) := rfl
          rw [this] at hret; cases hret; rfl
        subst hv
        have hsame' : ∀ k, isbound s1.world k = isbound s.world k := by
          intro k; rw [hs1]; exact hsame k
        rcases hres with ⟨h0, -, -⟩ | ⟨e2, -, ⟨m, hm1, hm2⟩, hvis⟩
        · cases h0
        · obtain ⟨ms, rfl, hm⟩ := hm1.list_inv
          have hms : ∃ w1, ms = [w1] ∧ Like w' w1 := by
            cases hm with
            | same h => cases h; exact ⟨_, rfl, Like.refl _⟩
            | cons hx h => cases h; exact ⟨_, rfl, hx⟩
          obtain ⟨w1, rfl, hl1⟩ := hms
          obtain ⟨es, rfl, hm'⟩ := hm2.list_inv
          have hes : ∃ w2, es = [w2] ∧ Like w1 w2 := by
            cases hm' with
            | same h => cases h; exact ⟨_, rfl, Like.refl _⟩
            | cons hx h => cases h; exact ⟨_, rfl, hx⟩
          obtain ⟨w2, rfl, hl2⟩ := hes
          obtain ⟨m, r2, hvis'⟩ := visit_single
            (bound_noBindings ((hsame' k).trans ha.2.1)) hvis
          obtain ⟨bd, hbd⟩ := Option.isSome_iff_exists.mp hb'
          obtain ⟨bd1, hbd1, -⟩ := hl1.get (by decide) hbd
          obtain ⟨bd2, hbd2, -⟩ := hl2.get (by decide) hbd1
          have hctx : contextExprs w' = (b ++ a).filterMap (·.get? .context_expr) := by
            unfold contextExprs; rw [hitems', hget]
          have hM : Macros E s1.world (contextExprs w2) (q :: L) := by
            have h0 : Macros E s.world (contextExprs w') (q :: L) := by
              rw [hctx, List.filterMap_append]; exact hL'
            exact ((h0.like (contexts_like hl1)).like (contexts_like hl2)).world hsame'
          obtain ⟨rest, hrest⟩ := ih m w2 s1 r2 ((hwf'.like hl1).like hl2)
            (by rw [hl2.isK, hl1.isK]; exact hk') (by rw [hbd2]; rfl) hM
            (fun p hp => hkeep p (by simp only [List.mem_cons] at hp ⊢; exact .inr hp))
            (f1.hook.trans hh) (f1.recursive.trans hrec) hvis'
          exact ⟨rest, by rw [happ, hrest]; rfl⟩

theorem decorator_order (L : List (String × Nat)) (n : Nat) (t : Val) (s s' : St υ) (r : Val)
    (hw : WellFormed t) (hk : t.isK .FunctionDef = true ∨ t.isK .ClassDef = true)
    (hL : Macros E s.world (decorators t).reverse L) (hkeep : ∀ p ∈ L, KeepsDecorators E p.2)
    (hh : s.hook = none) (hrec : s.recursive = true) (h : visit E n t s = some (.ok r, s')) :
    ∃ rest, applied s s' = L ++ rest := by
  induction L generalizing n t s r with
  | nil => exact ⟨_, rfl⟩
  | cons p L ih =>
    obtain ⟨k, id⟩ := p
    obtain ⟨after, c, before, as, hcs, hbn, hc, ha, hL'⟩ := hL.first
    obtain ⟨items, hi⟩ := hw.decorators hk
    have hce : decorators t = items := by
      unfold decorators; rw [hi]
    have hit : items = before.reverse ++ c :: after.reverse := by
      rw [hce] at hcs
      have := congrArg List.reverse hcs
      simpa using this
    subst hit
    have hinv := Invokes.decorator (E := E) (w := s.world) hk hi (fun j hj =>
      hbn j (List.mem_reverse.mp hj)) hc ha
    cases n with
    | zero => cases h
    | succ n =>
      obtain ⟨r', hexp⟩ := visit_inv hw hinv (.inr rfl) h
      obtain ⟨ret, v, s0, s1, hrun, hret, hs1, f1, happ, hres⟩ := expand_inv hh hrec ha.2.1 hexp
      cases L with
      | nil => exact ⟨_, happ⟩
      | cons q L =>
        have hsub : ∀ y ∈ before.reverse ++ after.reverse, y ∈ before.reverse ++ c :: after.reverse := by
          intro y hy
          rcases List.mem_append.mp hy with hy | hy
          · exact List.mem_append_left _ hy
          · exact List.mem_append_right _ (List.mem_cons_of_mem _ hy)
        have hget := withField_get (v := .list (before.reverse ++ after.reverse)) hi
        have hwf : WellFormed (withField t .decorator_list (.list (before.reverse ++ after.reverse))) := by
          refine hw.withField hi hsub ?_
          rcases hk with hk | hk <;> obtain ⟨l, fs, rfl⟩ := isK_eq hk
          · change hasList (withField (.node (.py .FunctionDef) l fs) .decorator_list _) .decorator_list = true
            unfold hasList; rw [hget]
          · change hasList (withField (.node (.py .ClassDef) l fs) .decorator_list _) .decorator_list = true
            unfold hasList; rw [hget]
        obtain ⟨hsame, hkeeps⟩ := hkeep (k, id) (by simp) n _ _ _ _ rfl hrun
        obtain ⟨w', hret', hk', hitems', hwf'⟩ := hkeeps (by rw [withField_isK, withField_isK]; exact hk) hwf
        subst hret'
        have hv : v = w' := by
          have : w'.isAST = true := by rcases hk' with hk' | hk' <;> exact isK_isAST hk'
          cases w' with
          | const | list => cases this
          | node => cases hret; rfl
        subst hv
        have hsame' : ∀ k, isbound s1.world k = isbound s.world k := by
          intro k; rw [hs1]; exact hsame k
        rcases hres with ⟨h0, -, -⟩ | ⟨w2, -, ⟨w1, hl1, hl2⟩, hvis⟩
        · subst h0; rcases hk' with hk' | hk' <;> cases hk'
        · have hctx : decorators v = before.reverse ++ after.reverse := by
            unfold decorators; rw [hitems']; dsimp only; rw [hget]
          have hM : Macros E s1.world (decorators w2).reverse (q :: L) := by
            have h0 : Macros E s.world (decorators v).reverse (q :: L) := by
              rw [hctx]; simpa using hL'
            exact ((h0.like (decorators_like hl1).reverse).like (decorators_like hl2).reverse).world hsame'
          obtain ⟨rest, hrest⟩ := ih n w2 s1 r' ((hwf'.like hl1).like hl2)
            (by rw [hl2.isK, hl1.isK, hl2.isK, hl1.isK]; exact hk') hM
            (fun p hp => hkeep p (by simp only [List.mem_cons] at hp ⊢; exact .inr hp))
            (f1.hook.trans hh) (f1.recursive.trans hrec) hvis
          exact ⟨rest, by rw [happ, hrest]; rfl⟩

end Mcpyrate.Expander
