import Verif.Spec.Collector
/-
`MacroCollector`: more fuel does not change the outcome.
-/
namespace Mcpyrate.Collector
open Py M Expander

variable {υ : Type} {E : Env υ} {w : World υ}

/-- What `m` finishes with, `m'` finishes with. -/
def Le {α : Type} (m m' : C α) : Prop := ∀ l x, m l = some x → m' l = some x

theorem Le.refl {α : Type} (m : C α) : Le m m := fun _ _ h => h

theorem Le.bind {α β : Type} {m m' : C α} {f f' : α → C β} (h : Le m m') (hf : ∀ a, Le (f a) (f' a)) :
    Le (m >>= f) (m' >>= f') := by
  intro l x e
  change M.bind m f l = _ at e
  change M.bind m' f' l = _
  simp only [M.bind] at e ⊢
  cases hm : m l with
  | none => rw [hm] at e; cases e
  | some p =>
    obtain ⟨r, l1⟩ := p
    rw [h _ _ hm]
    rw [hm] at e
    cases r with
    | error => exact e
    | ok a => exact hf a _ _ e

theorem Le.forAll {α : Type} {f f' : α → C Unit} (h : ∀ a, Le (f a) (f' a)) (xs : List α) : Le (forAll f xs) (forAll f' xs) := by
  induction xs with
  | nil => exact .refl _
  | cons x xs ih => exact .bind (h x) fun _ => ih

variable {vis vis' : Val → C Unit} (h : ∀ v, Le (vis v) (vis' v))
include h

theorem generic_le (t : Val) : Le (generic vis t) (generic vis' t) := by
  cases t with
  | const | list => exact .refl _
  | node c l fs =>
    refine .forAll (fun p => ?_) fs
    obtain ⟨f, v⟩ := p
    cases v with
    | const => exact .refl _
    | node => exact h _
    | list xs =>
      refine .forAll (fun x => ?_) xs
      unfold genericItem
      split
      · exact h x
      · exact .refl _

theorem found_le (synt : Syn) (p : String × List Val) : Le (found vis synt p) (found vis' synt p) :=
  .bind (.refl _) fun _ => h _

theorem visitMacro_le (synt : Syn) (x : Val) : Le (visitMacro vis synt x) (visitMacro vis' synt x) :=
  .bind (.refl _) fun _ => .bind (.refl _) fun _ => found_le h _ _

theorem visitSubscript_le (t : Val) : Le (visitSubscript E w vis t) (visitSubscript E w vis' t) := by
  refine .bind (.refl _) fun c => .bind (.refl _) fun d => ?_
  cases d with
  | none => exact generic_le h t
  | some p =>
    dsimp only
    split
    · exact .bind (found_le h _ _) fun _ => .bind (.refl _) fun _ => h _
    · exact generic_le h t

theorem visitWith_le (t : Val) : Le (visitWith E w vis t) (visitWith E w vis' t) := by
  refine .bind (.refl _) fun c => .bind (.refl _) fun d => ?_
  split
  · exact generic_le h t
  · exact .bind (.forAll (visitMacro_le h _) _) fun _ => .bind (.forAll h _) fun _ => .bind (.refl _) fun _ => h _

theorem visitDecorated_le (t : Val) : Le (visitDecorated E w vis t) (visitDecorated E w vis' t) := by
  refine .bind (.refl _) fun c => .bind (.refl _) fun d => ?_
  split
  · exact generic_le h t
  · exact .bind (.forAll (visitMacro_le h _) _) fun _ => .bind (.forAll h _) fun _ => .forAll h _

theorem visitBody_le (t : Val) : Le (visitBody E w vis t) (visitBody E w vis' t) := by
  unfold visitBody
  split
  · exact .refl _
  · split
    · exact .refl _
    · exact .forAll h _
    · unfold visitNode
      split
      · exact visitSubscript_le h _
      · exact visitWith_le h _
      · exact visitDecorated_le h _
      · exact visitDecorated_le h _
      · exact .refl _
      · exact generic_le h _

omit h

theorem visit_le {n m : Nat} (hnm : n ≤ m) (t : Val) : Le (visit E w n t) (visit E w m t) := by
  induction n generalizing m t with
  | zero => intro l x e; cases e
  | succ n ih =>
    cases m with
    | zero => omega
    | succ m => exact visitBody_le (fun v => ih (by omega) v) t

theorem Collects.unique {t : Val} {r r' : Except Exc Unit} {l l' : List Key} (h : Collects E w t r l)
    (h' : Collects E w t r' l') : r = r' ∧ l = l' := by
  obtain ⟨n, h⟩ := h
  obtain ⟨m, h'⟩ := h'
  have h1 := visit_le (Nat.le_max_left n m) t _ _ h
  have h2 := visit_le (Nat.le_max_right n m) t _ _ h'
  rw [h1] at h2
  cases h2; exact ⟨rfl, rfl⟩

end Mcpyrate.Collector
