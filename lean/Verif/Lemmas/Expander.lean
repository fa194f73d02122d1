import Verif.Model.Expander
/-
The expander preserves every state relation that its primitive steps preserve.
-/
namespace Mcpyrate.Expander
open Py

variable {υ : Type}

/-- Every finished run of `m`, whether it returns or raises, relates the states before and after. -/
def Pres {α : Type} (R : St υ → St υ → Prop) (m : X υ α) : Prop :=
  ∀ s, M.Post m s fun _ s' => R s s'

/-- All assignments to the world in a program satisfy `P` (the world before is not known). -/
def Prog.All (P : World υ → Prop) : Prog υ → Prop
  | .ret _ => True
  | .raise _ => True
  | .visit _ _ k => ∀ r, (k r).All P
  | .withHook _ body k => body.All P ∧ ∀ r, (k r).All P
  | .get k => ∀ b w, (k b w).All P
  | .put w k => P w ∧ k.All P
  | .visitNew _ _ k => ∀ r, (k r).All P
  | .hang => True

/-- All user code satisfies `Prog.All P`. -/
structure Env.All (E : Env υ) (P : World υ → Prop) : Prop where
  macros : ∀ i a, ((E.macros i).fn a).All P
  hooks : ∀ i t r n, (E.hooks i t r n).All P

theorem Prog.all_true (p : Prog υ) : p.All fun _ => True := by
  induction p with
  | ret | raise => trivial
  | visit _ _ k ih => exact ih
  | withHook _ _ k ihb ih => exact ⟨ihb, ih⟩
  | get k ih => exact ih
  | put w k ih => exact ⟨trivial, ih⟩
  | visitNew _ _ k ih => exact ih
  | hang => trivial

theorem Env.all_true (E : Env υ) : E.All fun _ => True :=
  ⟨fun _ _ => Prog.all_true _, fun _ _ _ _ => Prog.all_true _⟩

/-- A state relation preserved by the primitive steps of the expander. -/
structure Step (R : St υ → St υ → Prop) : Prop where
  refl : ∀ s, R s s
  trans : ∀ {a b c}, R a b → R b c → R a c
  log : ∀ s x, x.depth = s.depth → x.recursive = s.recursive → x.bound = some x.fn →
    isbound s.world x.name = some x.fn → R s { s with log := s.log ++ [x] }
  mode : ∀ s s' b, R { s with recursive := b } s' → R s { s' with recursive := s.recursive }

/-- A state relation preserved by the primitive steps of the expander and of user code. -/
structure Rel (P : World υ → Prop) (R : St υ → St υ → Prop) : Prop extends Step R where
  put : ∀ s w, P w → R s { s with world := w }
  hook : ∀ s s' h, R { s with hook := some h } s' → R s { s' with hook := s.hook }
  depth : ∀ s s', R { s with depth := s.depth + 1 } s' → R s { s' with depth := s.depth }
  new : ∀ s s' b, R { s with recursive := true, hook := none, world := { s.world with locals := b } } s' →
    R s { s' with recursive := s.recursive, hook := s.hook, world := { s'.world with locals := s.world.locals } }

section
variable {α β : Type} {P : World υ → Prop} {R : St υ → St υ → Prop}

section
variable (hR : Step R)
include hR

theorem Pres.pure (a : α) : Pres R (Pure.pure a : X υ α) := fun s => M.post_pure.mpr (hR.refl s)
theorem Pres.throw (e : Exc) : Pres R (M.throw e : X υ α) := fun s => M.post_throw.mpr (hR.refl s)
theorem Pres.get : Pres R (M.get : X υ (St υ)) := fun s => M.post_get.mpr (hR.refl s)
theorem Pres.ofExcept (x : Except Exc α) : Pres R (M.ofExcept x : X υ α) :=
  fun s => M.post_ofExcept.mpr (hR.refl s)
theorem Pres.bind {m : X υ α} {f : α → X υ β} (hm : Pres R m) (hf : ∀ a, Pres R (f a)) :
    Pres R (m >>= f) := by
  intro s
  rw [M.post_bind]
  refine (hm s).mono fun r s1 h1 => ?_
  cases r with
  | error e => exact h1
  | ok a => exact (hf a s1).mono fun _ _ h2 => hR.trans h1 h2
omit hR in
theorem Pres.attempt {m : X υ α} (hm : Pres R m) : Pres R (M.attempt m) := by
  intro s; rw [M.post_attempt]; exact hm s
omit hR in
theorem Pres.diverge : Pres R (M.diverge : X υ α) := fun _ => M.post_diverge
theorem Pres.withMode {m : X υ α} (b : Bool) (hm : Pres R m) : Pres R (withMode b m) := by
  intro s
  unfold Expander.withMode
  rw [M.post_bracket]
  exact (hm _).mono fun _ s' h => hR.mode s s' b h

variable {E : Env υ} {vis : Val → X υ Val} (hv : ∀ t, Pres R (vis t))
include hv

theorem visitMode_pres (mode : Mode) (t : Val) : Pres R (visitMode vis mode t) := by
  cases mode with
  | current => exact hv t
  | recursively => exact Pres.withMode hR _ (hv t)
  | once => exact Pres.withMode hR _ (Pres.bind hR (hv t) fun _ => Pres.pure hR _)

end

section
variable (hR : Rel P R)
include hR

theorem Pres.withHook {m : X υ α} (h : Nat) (hm : Pres R m) : Pres R (withHook h m) := by
  intro s
  unfold Expander.withHook
  rw [M.post_bracket]
  exact (hm _).mono fun _ s' h' => hR.hook s s' h h'

theorem Pres.withNew {m : X υ α} (b : Dict String Nat) (hm : Pres R m) : Pres R (withNew b m) := by
  intro s
  unfold Expander.withNew
  rw [M.post_bracket]
  exact (hm _).mono fun _ s' h' => hR.new s s' b h'

variable {E : Env υ} {vis : Val → X υ Val} (hv : ∀ t, Pres R (vis t))
include hv

theorem run_pres (p : Prog υ) (hp : p.All P) : Pres R (run vis p) := by
  induction p with
  | ret r => exact Pres.pure hR.toStep _
  | raise e => exact Pres.throw hR.toStep _
  | visit mode t k ih =>
    exact Pres.bind hR.toStep (Pres.attempt (visitMode_pres hR.toStep hv mode t)) fun r => ih r (hp r)
  | withHook h body k ihb ih =>
    exact Pres.bind hR.toStep (Pres.attempt (Pres.withHook hR _ (ihb hp.1))) fun r => ih r (hp.2 r)
  | get k ih => exact Pres.bind hR.toStep (Pres.get hR.toStep) fun s => ih _ _ (hp _ _)
  | put w k ih =>
    refine Pres.bind hR.toStep (fun s => ?_) fun _ => ih hp.2
    rw [M.post_modify]; exact hR.put s w hp.1
  | visitNew b t k ih =>
    exact Pres.bind hR.toStep (Pres.attempt (Pres.withNew hR b (hv t))) fun r => ih r (hp r)
  | hang => exact Pres.diverge

theorem runNested_pres (p : Prog υ) (hp : p.All P) : Pres R (runNested vis p) := by
  intro s
  unfold runNested
  rw [M.post_bracket]
  exact (run_pres hR hv p hp _).mono fun _ s' h => hR.depth s s' h

/-- The macro functions that are bound and the hook that is installed, when run, preserve `R`. -/
structure UserPres (R : St υ → St υ → Prop) (E : Env υ) (vis : Val → X υ Val) : Prop where
  macros : ∀ i a s, (∃ k, isbound s.world k = some i) →
    M.Post (runNested vis ((E.macros i).fn a)) s fun _ s' => R s s'
  hooks : ∀ i t r n s, s.hook = some i → M.Post (runNested vis (E.hooks i t r n)) s fun _ s' => R s s'

theorem user_pres (hE : E.All P) : UserPres R E vis :=
  ⟨fun _ _ s _ => runNested_pres hR hv _ (hE.macros _ _) s, fun _ _ _ _ s _ => runNested_pres hR hv _ (hE.hooks _ _ _ _) s⟩

end

section
variable (hR : Step R) {E : Env υ} {vis : Val → X υ Val} (hv : ∀ t, Pres R (vis t))
include hR hv

variable (hE : UserPres R E vis)
include hE

omit hv in
theorem applyMacro_pres (id : Nat) (name : String) (a : MArgs) (s : St υ)
    (hb : isbound s.world name = some id) :
    M.Post (applyMacro E vis id name a) s fun _ s' => R s s' := by
  unfold applyMacro
  rw [M.post_bind, M.post_get]; dsimp only
  rw [M.post_bind, M.post_modify]; dsimp only
  generalize hs1 : ({ s with log := s.log ++ [⟨name, id, a, s.depth, s.recursive, isbound s.world name⟩] } : St υ) = s1
  have f1 : R s s1 := by subst hs1; exact hR.log s _ rfl rfl hb hb
  have hw : s1.world = s.world := by subst hs1; rfl
  refine M.Post.mono ?_ fun _ _ h => hR.trans f1 h
  rw [M.post_bind]
  refine (hE.macros id a s1 ⟨name, by rw [hw]; exact hb⟩).mono fun r s2 h2 => ?_
  cases r with
  | error e => exact h2
  | ok v =>
    dsimp only
    rw [M.post_bind, M.post_get]; dsimp only
    split
    · rw [M.post_pure]; exact h2
    · rw [M.post_throw]; exact h2
    · rename_i hh _
      rw [M.post_bind]
      refine (hE.hooks _ _ _ _ s2 hh).mono fun r s3 h3 => ?_
      cases r with
      | error e => exact hR.trans h2 h3
      | ok v => rw [M.post_pure]; exact hR.trans h2 h3

omit hv in
theorem expandTry_pres (name : String) (a : MArgs) : Pres R (expandTry E vis name a) := by
  intro s
  unfold expandTry
  rw [M.post_bind, M.post_get]; dsimp only
  split
  · exact Pres.throw hR _ s
  · rename_i id hb
    rw [M.post_bind]
    refine (applyMacro_pres hR hE id name a s hb).mono fun r s' h => ?_
    cases r with
    | error e => exact h
    | ok v =>
      dsimp only
      split
      · rw [M.post_pure]; exact h
      · rw [M.post_throw]; exact h

omit hE in
theorem visitExpansion_pres (e t : Val) : Pres R (visitExpansion vis e t) := by
  unfold visitExpansion
  split
  · exact Pres.pure hR _
  · refine Pres.bind hR (Pres.ofExcept hR _) fun _ => Pres.bind hR (Pres.ofExcept hR _) fun _ =>
      Pres.bind hR (Pres.get hR) fun s => ?_
    split
    · exact hv _
    · exact Pres.pure hR _

theorem expand_pres (name : String) (a : MArgs) : Pres R (expand E vis name a) := by
  unfold expand
  refine Pres.bind hR (Pres.attempt (expandTry_pres hR hE name a)) fun r => ?_
  split
  · exact visitExpansion_pres hR hv _ _
  · exact Pres.throw hR _

omit hE in
theorem genericItems_pres (xs : List Val) : Pres R (genericItems vis xs) := by
  induction xs with
  | nil => exact Pres.pure hR _
  | cons x xs ih =>
    unfold genericItems
    split
    · exact Pres.bind hR (hv x) fun _ => Pres.bind hR ih fun _ => Pres.pure hR _
    · exact Pres.bind hR ih fun _ => Pres.pure hR _

omit hE in
theorem genericFields_pres (fs : Fields) : Pres R (genericFields vis fs) := by
  induction fs with
  | nil => exact Pres.pure hR _
  | cons p fs ih =>
    obtain ⟨f, v⟩ := p
    cases v with
    | const c => exact Pres.bind hR ih fun _ => Pres.pure hR _
    | list xs =>
      exact Pres.bind hR (genericItems_pres hR hv xs) fun _ => Pres.bind hR ih fun _ => Pres.pure hR _
    | node c l gs => exact Pres.bind hR (hv _) fun _ => Pres.bind hR ih fun _ => Pres.pure hR _

omit hE in
theorem genericVisit_pres (t : Val) : Pres R (genericVisit vis t) := by
  cases t with
  | const c => exact Pres.throw hR _
  | list xs => exact Pres.throw hR _
  | node c l fs => exact Pres.bind hR (genericFields_pres hR hv fs) fun _ => Pres.pure hR _

theorem visitSubscript_pres (t : Val) : Pres R (visitSubscript E vis t) := by
  unfold visitSubscript
  refine Pres.bind hR (Pres.ofExcept hR _) fun c => Pres.bind hR (Pres.ofExcept hR _) fun d =>
    Pres.bind hR (Pres.get hR) fun s => ?_
  split
  · exact Pres.bind hR (Pres.ofExcept hR _) fun p => Pres.bind hR (Pres.ofExcept hR _) fun tr =>
      Pres.bind hR (expand_pres hR hv hE _ _) fun r => Pres.pure hR _
  · exact genericVisit_pres hR hv t

theorem visitWith_pres (t : Val) : Pres R (visitWith E vis t) := by
  unfold visitWith
  refine Pres.bind hR (Pres.ofExcept hR _) fun c =>
    Pres.bind hR (Pres.get hR) fun s => Pres.bind hR (Pres.ofExcept hR _) fun d => ?_
  split
  · exact genericVisit_pres hR hv t
  · exact Pres.bind hR (Pres.ofExcept hR _) fun _ => Pres.bind hR (Pres.ofExcept hR _) fun _ =>
      Pres.bind hR (Pres.ofExcept hR _) fun _ =>
      Pres.bind hR (expand_pres hR hv hE _ _) fun r => Pres.ofExcept hR _

theorem visitDecorated_pres (t : Val) : Pres R (visitDecorated E vis t) := by
  unfold visitDecorated
  refine Pres.bind hR (Pres.ofExcept hR _) fun c =>
    Pres.bind hR (Pres.get hR) fun s => Pres.bind hR (Pres.ofExcept hR _) fun d => ?_
  split
  · exact genericVisit_pres hR hv t
  · exact Pres.bind hR (Pres.ofExcept hR _) fun _ =>
      Pres.bind hR (expand_pres hR hv hE _ _) fun r => Pres.ofExcept hR _

theorem visitName_pres (t : Val) : Pres R (visitName E vis t) := by
  unfold visitName
  refine Pres.bind hR (Pres.ofExcept hR _) fun i => Pres.bind hR (Pres.get hR) fun s => ?_
  dsimp only
  split
  · split
    · exact Pres.pure hR _
    · refine Pres.bind hR (Pres.withMode hR _ (expand_pres hR hv hE _ _)) fun r => ?_
      split
      · exact Pres.pure hR _
      · split
        · exact Pres.pure hR _
        · refine Pres.bind hR (Pres.get hR) fun s => ?_
          split
          · exact hv _
          · exact Pres.pure hR _
  · exact Pres.pure hR _

theorem visitNode_pres (t : Val) : Pres R (visitNode E vis t) := by
  unfold visitNode
  split
  · exact visitSubscript_pres hR hv hE _
  · exact visitWith_pres hR hv hE _
  · exact visitDecorated_pres hR hv hE _
  · exact visitDecorated_pres hR hv hE _
  · exact visitName_pres hR hv hE _
  · exact genericVisit_pres hR hv _

omit hE in
theorem visitElts_pres (xs : List Val) : Pres R (visitElts vis xs) := by
  induction xs with
  | nil => exact Pres.pure hR _
  | cons x xs ih => exact Pres.bind hR (hv x) fun _ => Pres.bind hR ih fun _ => Pres.pure hR _

end
end

/-- Every `visit` preserves a relation that user code preserves if visits do. -/
theorem visit_pres_of {R : St υ → St υ → Prop} (hR : Step R) {E : Env υ}
    (hE : ∀ vis, (∀ t, Pres R (vis t)) → UserPres R E vis) (n : Nat) : ∀ t, Pres R (visit E n t) := by
  induction n with
  | zero => intro t; exact Pres.diverge
  | succ n ih =>
    intro t
    unfold visit visitBody
    refine Pres.bind hR (Pres.get hR) fun s => ?_
    split
    · exact Pres.pure hR _
    · split
      · exact Pres.pure hR _
      · exact Pres.bind hR (visitElts_pres hR ih _) fun _ => Pres.pure hR _
      · exact visitNode_pres hR ih (hE _ ih) _

/-- Every `visit`, at any depth, preserves a relation that the primitive steps preserve. -/
theorem visit_pres {P : World υ → Prop} {R : St υ → St υ → Prop} (hR : Rel P R) {E : Env υ}
    (hE : E.All P) (n : Nat) : ∀ t, Pres R (visit E n t) :=
  visit_pres_of hR.toStep (fun _ hv => user_pres hR hv hE) n

theorem visitAs_pres {P : World υ → Prop} {R : St υ → St υ → Prop} (hR : Rel P R) {E : Env υ}
    (hE : E.All P) (n : Nat) (mode : Mode) (t : Val) : Pres R (visitAs E n mode t) :=
  visitMode_pres hR.toStep (visit_pres hR hE n) mode t

/-- Mode, hook and depth are restored; the log only grows. -/
structure Frame (s s' : St υ) : Prop where
  recursive : s'.recursive = s.recursive
  hook : s'.hook = s.hook
  depth : s'.depth = s.depth
  log : ∃ l, s'.log = s.log ++ l

theorem frame_rel : Rel (fun _ => True) (Frame (υ := υ)) where
  refl s := ⟨rfl, rfl, rfl, [], by simp⟩
  trans := by
    rintro a b c ⟨h1, h2, h3, l, h4⟩ ⟨g1, g2, g3, m, g4⟩
    exact ⟨g1.trans h1, g2.trans h2, g3.trans h3, l ++ m, by rw [g4, h4, List.append_assoc]⟩
  log s x _ _ _ _ := ⟨rfl, rfl, rfl, [x], rfl⟩
  put s w _ := ⟨rfl, rfl, rfl, [], by simp⟩
  mode := by rintro s s' b ⟨h1, h2, h3, l, h4⟩; exact ⟨rfl, h2, h3, l, h4⟩
  hook := by rintro s s' b ⟨h1, h2, h3, l, h4⟩; exact ⟨h1, rfl, h3, l, h4⟩
  depth := by rintro s s' ⟨h1, h2, h3, l, h4⟩; exact ⟨h1, h2, rfl, l, h4⟩
  new := by rintro s s' b ⟨h1, h2, h3, l, h4⟩; exact ⟨rfl, rfl, h3, l, h4⟩

theorem visit_frame (E : Env υ) (n : Nat) (t : Val) : Pres Frame (visit E n t) :=
  visit_pres frame_rel E.all_true n t

/-- If no user code assigns to the world, the world does not change. -/
theorem static_rel : Rel (fun _ => False) (fun s s' : St υ => s'.world = s.world) where
  refl _ := rfl
  trans h1 h2 := h2.trans h1
  log _ _ _ _ _ _ := rfl
  put _ _ h := h.elim
  mode _ _ _ h := h
  hook _ _ _ h := h
  depth _ _ h := h
  new s s' b h := by
    change s'.world = { s.world with locals := b } at h
    change { s'.world with locals := s.world.locals } = s.world
    rw [h]

end Mcpyrate.Expander
