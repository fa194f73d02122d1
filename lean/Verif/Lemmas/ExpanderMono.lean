import Verif.Model.Expander
/-
More fuel does not change the outcome of a finished run.
-/
namespace Mcpyrate.Expander
open Py

variable {υ α β : Type}

/-- `m'` finishes, with the same outcome, whenever `m` does. -/
def Le (m m' : X υ α) : Prop := ∀ s r, m s = some r → m' s = some r

theorem Le.refl (m : X υ α) : Le m m := fun _ _ h => h
theorem Le.trans {m m' m'' : X υ α} (h : Le m m') (h' : Le m' m'') : Le m m'' :=
  fun s r e => h' s r (h s r e)

theorem Le.bind {m m' : X υ α} {f f' : α → X υ β} (hm : Le m m') (hf : ∀ a, Le (f a) (f' a)) :
    Le (m >>= f) (m' >>= f') := by
  intro s r h
  change M.bind m f s = some r at h
  change M.bind m' f' s = some r
  simp only [M.bind] at h ⊢
  cases hs : m s with
  | none => rw [hs] at h; cases h
  | some p =>
    obtain ⟨x, s1⟩ := p
    rw [hs] at h
    rw [hm s _ hs]
    cases x with
    | error e => exact h
    | ok a => exact hf a s1 r h

theorem Le.attempt {m m' : X υ α} (hm : Le m m') : Le (M.attempt m) (M.attempt m') := by
  intro s r h
  simp only [M.attempt] at h ⊢
  cases hs : m s with
  | none => rw [hs] at h; cases h
  | some p => rw [hs] at h; rw [hm s _ hs]; exact h

theorem Le.bracket {m m' : X υ α} {f : St υ → St υ} {g : St υ → St υ → St υ} (hm : Le m m') :
    Le (M.bracket f g m) (M.bracket f g m') := by
  intro s r h
  simp only [M.bracket] at h ⊢
  cases hs : m (f s) with
  | none => rw [hs] at h; cases h
  | some p => rw [hs] at h; rw [hm _ _ hs]; exact h

section
variable {E : Env υ} {vis vis' : Val → X υ Val} (hv : ∀ t, Le (vis t) (vis' t))
include hv

theorem visitMode_le (mode : Mode) (t : Val) : Le (visitMode vis mode t) (visitMode vis' mode t) := by
  cases mode with
  | current => exact hv t
  | recursively => exact Le.bracket (hv t)
  | once => exact Le.bracket (Le.bind (hv t) fun _ => Le.refl _)

theorem run_le (p : Prog υ) : Le (run vis p) (run vis' p) := by
  induction p with
  | ret r => exact Le.refl _
  | raise e => exact Le.refl _
  | visit mode t k ih => exact Le.bind (Le.attempt (visitMode_le hv mode t)) ih
  | withHook h body k ihb ih => exact Le.bind (Le.attempt (Le.bracket ihb)) ih
  | get k ih => exact Le.bind (Le.refl _) fun s => ih _ _
  | put w k ih => exact Le.bind (Le.refl _) fun _ => ih
  | visitNew b t k ih => exact Le.bind (Le.attempt (Le.bracket (hv t))) ih
  | hang => exact Le.refl _

theorem runNested_le (p : Prog υ) : Le (runNested vis p) (runNested vis' p) := Le.bracket (run_le hv p)

theorem applyMacro_le (id : Nat) (name : String) (a : MArgs) :
    Le (applyMacro E vis id name a) (applyMacro E vis' id name a) := by
  unfold applyMacro
  refine Le.bind (Le.refl _) fun s => Le.bind (Le.refl _) fun _ =>
    Le.bind (runNested_le hv _) fun r => Le.bind (Le.refl _) fun s' => ?_
  split
  · exact Le.refl _
  · exact Le.refl _
  · exact Le.bind (runNested_le hv _) fun _ => Le.refl _

theorem expand_le (name : String) (a : MArgs) : Le (expand E vis name a) (expand E vis' name a) := by
  unfold expand
  refine Le.bind (Le.attempt ?_) fun r => ?_
  · unfold expandTry
    refine Le.bind (Le.refl _) fun s => ?_
    split
    · exact Le.refl _
    · refine Le.bind (applyMacro_le hv _ _ _) fun r => ?_
      split <;> exact Le.refl _
  · split
    · unfold visitExpansion
      split
      · exact Le.refl _
      · refine Le.bind (Le.refl _) fun _ => Le.bind (Le.refl _) fun _ => Le.bind (Le.refl _) fun s => ?_
        split
        · exact hv _
        · exact Le.refl _
    · exact Le.refl _

theorem genericItems_le (xs : List Val) : Le (genericItems vis xs) (genericItems vis' xs) := by
  induction xs with
  | nil => exact Le.refl _
  | cons x xs ih =>
    unfold genericItems
    split
    · exact Le.bind (hv x) fun _ => Le.bind ih fun _ => Le.refl _
    · exact Le.bind ih fun _ => Le.refl _

theorem genericFields_le (fs : Fields) : Le (genericFields vis fs) (genericFields vis' fs) := by
  induction fs with
  | nil => exact Le.refl _
  | cons p fs ih =>
    obtain ⟨f, v⟩ := p
    cases v with
    | const c => exact Le.bind ih fun _ => Le.refl _
    | list xs => exact Le.bind (genericItems_le hv xs) fun _ => Le.bind ih fun _ => Le.refl _
    | node c l gs => exact Le.bind (hv _) fun _ => Le.bind ih fun _ => Le.refl _

theorem genericVisit_le (t : Val) : Le (genericVisit vis t) (genericVisit vis' t) := by
  cases t with
  | const c => exact Le.refl _
  | list xs => exact Le.refl _
  | node c l fs => exact Le.bind (genericFields_le hv fs) fun _ => Le.refl _

theorem visitNode_le (t : Val) : Le (visitNode E vis t) (visitNode E vis' t) := by
  have hdec : ∀ t, Le (visitDecorated E vis t) (visitDecorated E vis' t) := by
    intro t
    unfold visitDecorated
    refine Le.bind (Le.refl _) fun c => Le.bind (Le.refl _) fun s => Le.bind (Le.refl _) fun d => ?_
    split
    · exact genericVisit_le hv t
    · exact Le.bind (Le.refl _) fun _ => Le.bind (expand_le hv _ _) fun r => Le.refl _
  unfold visitNode
  split
  · unfold visitSubscript
    refine Le.bind (Le.refl _) fun c => Le.bind (Le.refl _) fun d => Le.bind (Le.refl _) fun s => ?_
    split
    · exact Le.bind (Le.refl _) fun p => Le.bind (Le.refl _) fun tr =>
        Le.bind (expand_le hv _ _) fun r => Le.refl _
    · exact genericVisit_le hv _
  · unfold visitWith
    refine Le.bind (Le.refl _) fun c => Le.bind (Le.refl _) fun s => Le.bind (Le.refl _) fun d => ?_
    split
    · exact genericVisit_le hv _
    · exact Le.bind (Le.refl _) fun _ => Le.bind (Le.refl _) fun _ => Le.bind (Le.refl _) fun _ =>
        Le.bind (expand_le hv _ _) fun r => Le.refl _
  · exact hdec _
  · exact hdec _
  · unfold visitName
    refine Le.bind (Le.refl _) fun i => Le.bind (Le.refl _) fun s => ?_
    dsimp only
    split
    · split
      · exact Le.refl _
      · refine Le.bind (Le.bracket (expand_le hv _ _)) fun r => ?_
        split
        · exact Le.refl _
        · split
          · exact Le.refl _
          · refine Le.bind (Le.refl _) fun s => ?_
            split
            · exact hv _
            · exact Le.refl _
    · exact Le.refl _
  · exact genericVisit_le hv _

theorem visitElts_le (xs : List Val) : Le (visitElts vis xs) (visitElts vis' xs) := by
  induction xs with
  | nil => exact Le.refl _
  | cons x xs ih => exact Le.bind (hv x) fun _ => Le.bind ih fun _ => Le.refl _

end

theorem visit_succ_le (E : Env υ) (n : Nat) : ∀ t, Le (visit E n t) (visit E (n + 1) t) := by
  induction n with
  | zero => intro t s r h; cases h
  | succ n ih =>
    intro t
    change Le (visitBody E (visit E n) t) (visitBody E (visit E (n + 1)) t)
    unfold visitBody
    refine Le.bind (Le.refl _) fun s => ?_
    split
    · exact Le.refl _
    · split
      · exact Le.refl _
      · exact Le.bind (visitElts_le ih _) fun _ => Le.refl _
      · exact visitNode_le ih _

/-- More fuel gives the same outcome. -/
theorem visit_mono (E : Env υ) {n m : Nat} (h : n ≤ m) (t : Val) : Le (visit E n t) (visit E m t) := by
  induction h with
  | refl => exact Le.refl _
  | step _ ih => exact Le.trans ih (visit_succ_le E _ t)

theorem visitAs_mono (E : Env υ) {n m : Nat} (h : n ≤ m) (mode : Mode) (t : Val) :
    Le (visitAs E n mode t) (visitAs E m mode t) := visitMode_le (visit_mono E h) mode t

/-- The outcome of a visit does not depend on the fuel. -/
theorem visitAs_det {E : Env υ} {n m : Nat} {mode : Mode} {t : Val} {s : St υ}
    {r r' : Except Exc Val × St υ} (h : visitAs E n mode t s = some r)
    (h' : visitAs E m mode t s = some r') : r = r' := by
  have h1 := visitAs_mono E (Nat.le_max_left n m) mode t s r h
  have h2 := visitAs_mono E (Nat.le_max_right n m) mode t s r' h'
  rw [h1] at h2; cases h2; rfl

end Mcpyrate.Expander
