import Verif.Lemmas.LayersMain
import Verif.Lemmas.LayersRun
/-
Expanding layer by layer, and at once.
-/
namespace Mcpyrate.Expander.Layers
open Py

variable {υ : Type} {E : Env υ} {w : World υ}

/-! ### runs -/

theorem runs_frame {mode : Mode} {t : Val} {s s' : St υ} {r : Except Exc Val} (h : Runs E mode t s r s') : Frame s s' := by
  obtain ⟨n, h⟩ := h
  exact visitAs_pres frame_rel E.all_true n mode t s r s' h

theorem once_up {t t1 : Val} {s s1 : St υ} (hT : T t) (ht : Tidy t) (hh : s.hook = none)
    (h : Runs E .once t s (.ok (done t1)) s1) (hm : TidyMacros E (fresh s s1)) :
    s1.world = s.world ∧ ∃ n, It E s.world Same n t t1 := by
  obtain ⟨n, b, r0, s0, hv, rfl, -, hr, hb⟩ := h.toVisit
  obtain ⟨v0, rfl, hw⟩ := hr _ rfl
  have hw : done t1 = done v0 := hw
  cases hw
  dsimp only at hb
  subst hb
  obtain ⟨h1, h2⟩ := visit_up (w := s.world) n t hT ht { s with recursive := false } t1 s0 ⟨rfl, hh, rfl⟩ hv hm
  exact ⟨h1, n, h2⟩

theorem rec_up {t r : Val} {s s1 : St υ} (hT : T t) (ht : Tidy t) (hh : s.hook = none)
    (h : Runs E .recursively t s (.ok r) s1) (hm : TidyMacros E (fresh s s1)) :
    s1.world = s.world ∧ ∃ D, RD E s.world D t r := by
  obtain ⟨n, b, r0, s0, hv, rfl, -, hr, hb⟩ := h.toVisit
  obtain ⟨v0, rfl, hw⟩ := hr _ rfl
  have hw : r = v0 := hw
  cases hw
  dsimp only at hb
  subst hb
  obtain ⟨h1, h2⟩ := visit_up (w := s.world) n t hT ht { s with recursive := true } r s0 ⟨rfl, hh, rfl⟩ hv hm
  exact ⟨h1, n, h2⟩

theorem once_runs {t t1 : Val} {s : St υ} {n : Nat} (hT : T t) (ht : Tidy t) (hh : s.hook = none)
    (h : It E s.world Same n t t1) : ∃ s1, Runs E .once t s (.ok (done t1)) s1 ∧ s1.world = s.world ∧ TidyMacros E (fresh s s1) := by
  obtain ⟨m, s', h1, h2⟩ := once_dn n t t1 hT ht h { s with recursive := false } ⟨rfl, hh, rfl⟩
  refine ⟨{ s' with recursive := s.recursive }, ⟨m, ?_⟩, h2.world, h2.tidy⟩
  simp only [visitAs, visitMode, withMode, M.bracket]
  rw [run_bind h1]
  rfl

theorem rec_runs {t r : Val} {s : St υ} {D : Nat} (hT : T t) (ht : Tidy t) (hh : s.hook = none)
    (h : RD E s.world D t r) : ∃ s1, Runs E .recursively t s (.ok r) s1 ∧ s1.world = s.world ∧ TidyMacros E (fresh s s1) := by
  obtain ⟨m, s', h1, h2⟩ := rd_dn D t r hT ht h { s with recursive := true } ⟨rfl, hh, rfl⟩
  refine ⟨{ s' with recursive := s.recursive }, ⟨m, ?_⟩, h2.world, h2.tidy⟩
  simp only [visitAs, visitMode, withMode, M.bracket]
  rw [h1]

/-! ### after one layer -/

theorem once_T {x y : Val} (h : ∀ u ∈ Markers.spliceResult y, u.isAST = true) : T y := by
  cases y with
  | node => exact .inr rfl
  | list ys => exact .inr (List.all_eq_true.mpr h)
  | const c => cases c <;> first | exact .inl rfl | exact absurd (h _ List.mem_cons_self) (by simp [Val.isAST])

theorem once_tidy {y : Val} (hT : T y) (h : ∀ u ∈ Markers.spliceResult y, Tidy u) : Tidy y := by
  cases y with
  | node => exact h _ List.mem_cons_self
  | list ys => exact tidy_list h
  | const c => exact tidy_const c

theorem once_next {n : Nat} {t t1 : Val} (hT : T t) (ht : Tidy t) (hset : Settled E w t) (h : It E w Same n t t1) : T t1 ∧ Tidy t1 := by
  have := once_once n t t1 hT ht hset h
  have hT1 := once_T (x := t) this.shape.nodes
  exact ⟨hT1, once_tidy hT1 this.tidy⟩

/-! ### without invocations -/

theorem rd_inert {t : Val} (hT : T t) (ht : Tidy t) (hne : t ≠ .list []) (hn : NoInvocations E w t) : ∃ D, RD E w D t t := by
  rcases hT with rfl | hT
  · exact ⟨0, by rw [rd_fx]; exact (fx_same (.inr (.inr rfl))).mpr rfl⟩
  · let s : St υ := { recursive := true, hook := none, world := w, depth := 0, log := [] }
    have := visit_clean E s t.size t hT hne (fun u hu => ⟨ht.1.1 u hu.reach, hn u hu⟩) (Nat.le_refl _)
    exact ⟨_, (visit_up (w := w) (b := true) t.size t (.inr hT) ht s t s ⟨rfl, rfl, rfl⟩ this (tidyMacros_self s)).2⟩

theorem layered_up {t r : Val} {s s' : St υ} (h : Layered E t s r s') (hT : T t) (ht : Tidy t) (hh : s.hook = none)
    (hset : ∀ u, Later E s t u → Settled E s.world u) (hm : TidyMacros E (fresh s s')) (hr : r ≠ .list []) :
    ∃ D, RD E s.world D t r := by
  have hfr : ∀ {t r s s'}, Layered E t s r s' → Frame s s' := by
    intro t r s s' h
    induction h with
    | finished => exact frame_refl _
    | step h _ ih => exact (runs_frame h).trans ih
  induction h with
  | finished hn => exact rd_inert hT ht hr hn
  | @step t s t1 s1 r s' h hl ih =>
    have f1 := runs_frame h
    rw [tidyMacros_trans f1 (hfr hl)] at hm
    obtain ⟨hw, n, h1⟩ := once_up hT ht hh h hm.1
    have hs := hset _ .refl
    obtain ⟨hT1, ht1⟩ := once_next hT ht hs h1
    obtain ⟨D, hD⟩ := ih hT1 ht1 (f1.hook.trans hh) (fun u hu => by rw [hw]; exact hset u (.step h hu)) hm.2 hr
    rw [hw] at hD
    exact ⟨D + 1, (layer D n t t1 hT ht hs h1 r).mp hD⟩

/-! ### the other way -/

theorem genL_change {R S : Val → Val → Prop} {xs ys : List Val} (h : GenL R xs ys) (hi : ∀ x y, R x y → ∃ z, S x z) :
    ∃ zs, GenL S xs zs := by
  induction h with
  | nil => exact ⟨_, .nil⟩
  | other hx _ ih => obtain ⟨zs, hz⟩ := ih; exact ⟨_, .other hx hz⟩
  | item hx hr _ ih => obtain ⟨zs, hz⟩ := ih; obtain ⟨z, h⟩ := hi _ _ hr; exact ⟨_, .item hx h hz⟩

theorem genF_change {R S : Val → Val → Prop} {fs fs' : Fields} (h : GenF R fs fs') (hi : ∀ x y, R x y → ∃ z, S x z) :
    ∃ gs, GenF S fs gs := by
  induction h with
  | nil => exact ⟨_, .nil⟩
  | const _ ih => obtain ⟨zs, hz⟩ := ih; exact ⟨_, .const hz⟩
  | list hl _ ih => obtain ⟨zs, hz⟩ := ih; obtain ⟨ys, h⟩ := genL_change hl hi; exact ⟨_, .list h hz⟩
  | node hv hr _ _ ih =>
    obtain ⟨zs, hz⟩ := ih
    obtain ⟨z, h⟩ := hi _ _ hr
    cases hn : z.isNone with
    | true => exact ⟨_, .deleted hv h hn hz⟩
    | false => exact ⟨_, .node hv h hn hz⟩
  | deleted hv hr _ _ ih =>
    obtain ⟨zs, hz⟩ := ih
    obtain ⟨z, h⟩ := hi _ _ hr
    cases hn : z.isNone with
    | true => exact ⟨_, .deleted hv h hn hz⟩
    | false => exact ⟨_, .node hv h hn hz⟩

theorem all2_change {R S : Val → Val → Prop} {xs ys : List Val} (h : All2 R xs ys) (hi : ∀ x y, R x y → ∃ z, S x z) :
    ∃ zs, All2 S xs zs := by
  induction h with
  | nil => exact ⟨_, .nil⟩
  | cons hr _ ih => obtain ⟨zs, hz⟩ := ih; obtain ⟨z, h⟩ := hi _ _ hr; exact ⟨_, .cons h hz⟩

/-- What can be expanded recursively can be expanded once. -/
theorem it_once {A : Val → Val → Prop} : ∀ n t r, It E w A n t r → ∃ t1, It E w Same n t t1 := by
  intro n
  induction n with
  | zero => intro t r h; exact h.elim
  | succ n ih =>
    intro t r h
    cases h with
    | same h => exact ⟨_, .same h⟩
    | list hb hl => obtain ⟨zs, h⟩ := all2_change hl ih; exact ⟨_, .list hb h⟩
    | name hb hk hi => exact ⟨_, .name hb hk hi⟩
    | generic hb hd hk hi hg => obtain ⟨zs, h⟩ := genF_change hg ih; exact ⟨_, .generic hb hd hk hi h⟩
    | @call t k i a c e r hb hd hp hbc he hf =>
      have : ∃ r', Finish E Same t k a.synt c e r' := by
        cases hf with
        | nameNone h1 h2 => exact ⟨_, .nameNone h1 h2⟩
        | nameSame h1 h2 h3 => exact ⟨_, .nameSame h1 h2 h3⟩
        | name h1 h2 h3 _ => exact ⟨_, .name h1 h2 h3 rfl⟩
        | exprNone h1 h2 => exact ⟨_, .exprNone h1 h2⟩
        | expr h1 h2 _ => exact ⟨_, .expr h1 h2 rfl⟩
        | stmtNone h1 h2 h3 => exact ⟨_, .stmtNone h1 h2 h3⟩
        | stmt h1 h2 _ h3 =>
          have hee := (shape_self (goodExp_T (exp_good he))).nodes
          rcases insertCoverage_cov (f := E.filename) (k := k) (l := locOf (if a.synt = .block then t else c)) with hc | hc | hc
          · exact ⟨_, .stmt h1 h2 rfl (hc e)⟩
          · obtain ⟨x, hx⟩ := hc _
            rw [hx] at h3; cases h3
          · exact ⟨_, .stmt h1 h2 rfl (hc e hee)⟩
      obtain ⟨r', h⟩ := this
      exact ⟨r', .call hb hd hp hbc he h⟩

theorem rd_once {D : Nat} {t r : Val} (h : RD E w D t r) : ∃ n t1, It E w Same n t t1 := by
  rw [rd_fx] at h
  obtain ⟨n, h⟩ := h
  obtain ⟨t1, h1⟩ := it_once n t r h
  exact ⟨n, t1, h1⟩

/-- If no expansion has to be visited. -/
theorem it_last : ∀ n t r, T t → Tidy t → Settled E w t → It E w (fun _ _ => False) n t r → NoInvocations E w r := by
  have hdn : ∀ {u : Val}, isDone u = true → NoInvocations E w u := by
    intro u hu v hv
    cases hv with
    | refl _ h => rw [hu] at h; cases h
    | step h => rw [hu] at h; cases h
  have hnone : NoInvocations E w .none := by
    intro v hv hi
    cases hv with
    | refl => have := hi.isAST; cases this
    | step _ h => cases h
  have hlist : ∀ {xs : List Val}, (∀ x ∈ xs, x.isAST = true → NoInvocations E w x) → NoInvocations E w (ofList xs) := by
    intro xs h
    cases xs with
    | nil => exact hnone
    | cons x xs =>
      intro v hv hi
      cases hv with
      | refl => have := hi.isAST; cases this
      | step _ hm hv =>
        obtain ⟨h1, h2⟩ := List.mem_filter.mp hm
        exact h _ h1 h2 v hv hi
  intro n
  induction n with
  | zero => intro t r _ _ _ h; exact h.elim
  | succ n ih =>
    intro t r hT ht hset h
    have hsp : ∀ {y : Val}, NoInvocations E w y → ∀ u ∈ Markers.spliceResult y, NoInvocations E w u ∨ u.isAST = false := by
      intro y hy u hu
      cases y with
      | node => rcases List.mem_singleton.mp hu with rfl; exact .inl hy
      | list ys =>
        cases hua : u.isAST with
        | false => exact .inr rfl
        | true => exact .inl fun v hv => hy v (.step rfl (List.mem_filter.mpr ⟨hu, hua⟩) hv)
      | const c =>
        cases c <;> first | (cases hu; done) | (rcases List.mem_singleton.mp hu with rfl; exact .inr rfl)
    cases h with
    | same h =>
      rcases h with h | h | h
      · intro u _ hi
        have hnb : ∀ k, isbound w k = none := by
          intro k
          unfold noBindings at h
          simp only [Bool.and_eq_true, List.isEmpty_iff] at h
          simp [isbound, h.1, h.2, Dict.get]
        have hnn : ∀ c, ¬ Names E w c := by
          rintro c ⟨k, as, id, _, _, h, _⟩
          rw [hnb] at h; cases h
        cases hi with
        | expr _ _ h => exact hnn _ h
        | block _ _ _ _ h => exact hnn _ h
        | decorator _ _ _ h => exact hnn _ h
        | name _ _ _ h => rw [hnb] at h; cases h
      · exact hdn h
      · rw [h]; exact hnone
    | @list xs ys hb hl =>
      have hT' : (Val.list xs).isTree = true := by rcases hT with h | h; cases h; exact h
      have hl' : All2 (fun _ y => NoInvocations E w y) xs ys := all2_imp hl fun x y hx hr => by
        have hxa := List.all_eq_true.mp hT' x hx
        exact ih x y (.inr (isAST_isTree hxa)) (tidy_item ht hT' hx)
          (settled_child hset rfl (List.mem_filter.mpr ⟨hx, hxa⟩)) hr
      have hsh : All2 (fun _ y => ∀ u ∈ Markers.spliceResult y, u.isAST = true) xs ys := all2_imp hl fun x y hx hr =>
        (it_shape (fun _ _ _ h => h.elim) n x y (.inr (isAST_isTree (List.all_eq_true.mp hT' x hx))) hr).nodes
      have hall : ∀ {P : Val → Prop} {xs ys : List Val}, All2 (fun _ y => P y) xs ys → ∀ y ∈ ys, P y := by
        intro P xs ys h y hy
        induction h with
        | nil => cases hy
        | cons hp _ ih => 
          rcases List.mem_cons.mp hy with rfl | hy
          · exact hp
          · exact ih hy
      refine hlist fun u hu hua => ?_
      rw [flattenV_flatMap (hall hsh)] at hu
      obtain ⟨y, h1, h2⟩ := List.mem_flatMap.mp hu
      rcases hsp (hall hl' y h1) u h2 with h | h
      · exact h
      · rw [hua] at h; cases h
    | name hb hk hi =>
      intro u hu
      cases hu with
      | refl => exact hi
      | step hd hm hu =>
        have hno := ht.1.2 _ (.refl _)
        simp only [nestingOk, hk, Bool.not_true, Bool.false_or, Bool.and_eq_true] at hno
        have hc := List.all_eq_true.mp hno.2 _ hm
        intro hiu
        have : ∀ {x v : Val}, isCtxNode x = true → Open x v → ¬ Invocation E w v := by
          intro x v hx ho hi
          unfold isCtxNode at hx
          split at hx
          all_goals first
            | (cases hx; done)
            | (cases ho with
               | refl => cases hi with
                 | expr h => cases h
                 | block h => cases h
                 | decorator h => rcases h with h | h <;> cases h
                 | name h => cases h
               | step _ h => cases h)
        exact this hc hu hiu
    | @generic c l fs fs1 hb hd hk hi hg =>
      have hg' : GenF (fun x y => Once E w x y ∧ NoInvocations E w y) fs fs1 := genF_imp (c := c) (l := l) hg fun x y hx hr =>
        have h1 := tidy_child ht hx
        have h2 := settled_child hset hd hx
        have h3 : T x := .inr (isAST_isTree (childNodes_isAST hx))
        ⟨once_once n x y h3 h1 h2 (it_mono (fun _ _ h => h.elim) hr), ih x y h3 h1 h2 hr⟩
      have hi1 := (reassemble ht hset hd hi hk (genF_mono (fun _ _ h => h.1) hg')).2
      intro u hu
      cases hu with
      | refl => exact hi1
      | step _ hm hu =>
        have : ∀ {fs fs1 : Fields}, GenF (fun x y => Once E w x y ∧ NoInvocations E w y) fs fs1 →
            ∀ x ∈ childNodes (.node c l fs1), NoInvocations E w x := by
          have hL : ∀ {xs ys : List Val}, GenL (fun x y => Once E w x y ∧ NoInvocations E w y) xs ys →
              ∀ x ∈ ys, x.isAST = true → NoInvocations E w x := by
            intro xs ys h
            induction h with
            | nil => intro x hx; cases hx
            | other hx _ ih =>
              intro y hy hya
              rcases List.mem_cons.mp hy with rfl | hy
              · rw [hx] at hya; cases hya
              · exact ih y hy hya
            | item hx hr _ ih =>
              intro y hy hya
              rcases List.mem_append.mp hy with hy | hy
              · rcases hsp hr.2 y hy with h | h
                · exact h
                · rw [hya] at h; cases h
              · exact ih y hy hya
          intro fs fs1 h
          induction h with
          | nil => intro x hx; cases hx
          | const _ ih => intro x hx; exact ih x (by simpa [childNodes] using hx)
          | list hl _ ih =>
            intro x hx
            simp only [childNodes, List.flatMap_cons, List.mem_append] at hx
            rcases hx with hx | hx
            · obtain ⟨h1, h2⟩ := List.mem_filter.mp hx
              exact hL hl x h1 h2
            · exact ih x hx
          | @node f v v' _ _ hv hr hn _ ih =>
            intro x hx
            rw [childNodes, List.flatMap_cons, List.mem_append] at hx
            rcases hx with hx | hx
            · cases v' with
              | node => rcases List.mem_singleton.mp hx with rfl; exact hr.2
              | list ys =>
                obtain ⟨h1, h2⟩ := List.mem_filter.mp hx
                rcases hsp hr.2 x h1 with h | h
                · exact h
                · rw [h2] at h; cases h
              | const => cases hx
            · exact ih x hx
          | deleted _ _ _ _ ih => exact ih
        exact this hg' _ hm u hu
    | @call t k i a c e r hb hd hp hbc he hf =>
      cases hf with
      | nameNone => exact hdn rfl
      | nameSame => exact hdn rfl
      | name _ _ _ h => exact h.elim
      | exprNone => exact hdn rfl
      | expr _ _ h => exact h.elim
      | stmt _ _ h => exact h.elim
      | stmtNone hy hn hic =>
        have hen : e = .none := by
          rcases goodExp_T (exp_good he) with h | h
          · exact h
          · rw [isTree_isNone h] at hn; cases hn
        subst hen
        rcases insertCoverage_splice hic with rfl | rfl
        · exact hnone
        · exact hlist (xs := [_]) fun x hx _ => by
            rcases List.mem_singleton.mp hx with rfl; exact hdn rfl

theorem layered_dn : ∀ D {t r : Val} {s : St υ}, RD E s.world D t r → T t → Tidy t → s.hook = none →
    (∀ u, Later E s t u → Settled E s.world u) → ∃ s', Layered E t s r s' ∧ TidyMacros E (fresh s s') := by
  have hfr : ∀ {t r s s'}, Layered E t s r s' → Frame s s' := by
    intro t r s s' h
    induction h with
    | finished => exact frame_refl _
    | step h _ ih => exact (runs_frame h).trans ih
  intro D
  induction D with
  | zero =>
    intro t r s h hT ht hh hset
    obtain ⟨n, h⟩ := h
    obtain ⟨s1, h1, h2, h3⟩ := once_runs hT ht hh (it_mono (fun _ _ h => h.elim) h)
    exact ⟨s1, .step h1 (.finished (by rw [h2]; exact it_last n t r hT ht (hset _ .refl) h)), h3⟩
  | succ D ih =>
    intro t r s h hT ht hh hset
    obtain ⟨n, t1, h1⟩ := rd_once h
    obtain ⟨s1, h2, h3, h4⟩ := once_runs hT ht hh h1
    have hs := hset _ .refl
    obtain ⟨hT1, ht1⟩ := once_next hT ht hs h1
    have h5 := (layer D n t t1 hT ht hs h1 r).mpr h
    rw [← h3] at h5
    have f1 := runs_frame h2
    obtain ⟨s', h6, h7⟩ := ih h5 hT1 ht1 (f1.hook.trans hh) fun u hu => by rw [h3]; exact hset u (.step h2 hu)
    exact ⟨s', .step h2 h6, (tidyMacros_trans f1 (hfr h6)).mpr ⟨h4, h7⟩⟩

end Mcpyrate.Expander.Layers
