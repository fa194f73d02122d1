/-
Computations with state, exceptions and possible non-termination, and a rule calculus for them.

`M ε σ α`: from a state to nothing (the run does not finish within the fuel) or a result (value or
exception) and the state afterwards.  State changes survive exceptions, as in Python.
-/
namespace Mcpyrate.Py

def M (ε σ α : Type) := σ → Option (Except ε α × σ)

namespace M
variable {ε σ α β : Type}

def pure (a : α) : M ε σ α := fun s => some (.ok a, s)
def bind (m : M ε σ α) (f : α → M ε σ β) : M ε σ β := fun s =>
  match m s with
  | none => none
  | some (.error e, s') => some (.error e, s')
  | some (.ok a, s') => f a s'
instance : Monad (M ε σ) := { pure := M.pure, bind := M.bind }

def throw (e : ε) : M ε σ α := fun s => some (.error e, s)
def get : M ε σ σ := fun s => some (.ok s, s)
def modify (f : σ → σ) : M ε σ Unit := fun s => some (.ok (), f s)
/-- `try: …`: hand over the outcome. -/
def attempt (m : M ε σ α) : M ε σ (Except ε α) := fun s =>
  match m s with
  | none => none
  | some (r, s') => some (.ok r, s')
def ofExcept : Except ε α → M ε σ α
  | .ok a => pure a
  | .error e => throw e
/-- Change the state on entry; on exit, whether normal or by an exception, restore something
remembered from the entry state (`try: … finally: …`). -/
def bracket (enter : σ → σ) (exit : σ → σ → σ) (m : M ε σ α) : M ε σ α := fun s =>
  match m (enter s) with
  | none => none
  | some (r, s') => some (r, exit s s')
def diverge : M ε σ α := fun _ => none

/-- Every finished run of `m` from `s` ends with `Q`. -/
def Post (m : M ε σ α) (s : σ) (Q : Except ε α → σ → Prop) : Prop :=
  ∀ r s', m s = some (r, s') → Q r s'

variable {Q : Except ε α → σ → Prop} {s : σ}

theorem Post.mono {m : M ε σ α} {Q' : Except ε α → σ → Prop} (h : Post m s Q)
    (hq : ∀ r s', Q r s' → Q' r s') : Post m s Q' := fun r s' e => hq _ _ (h r s' e)

theorem Post.and {m : M ε σ α} {Q' : Except ε α → σ → Prop} (h : Post m s Q) (h' : Post m s Q') :
    Post m s (fun r s' => Q r s' ∧ Q' r s') := fun r s' e => ⟨h r s' e, h' r s' e⟩

theorem post_pure {a : α} : Post (Pure.pure a : M ε σ α) s Q ↔ Q (.ok a) s := by
  constructor
  · intro h; exact h _ _ rfl
  · rintro h r s' ⟨⟩; exact h

theorem post_throw {e : ε} : Post (throw e : M ε σ α) s Q ↔ Q (.error e) s := by
  constructor
  · intro h; exact h _ _ rfl
  · rintro h r s' ⟨⟩; exact h

theorem post_bind {β} {m : M ε σ β} {f : β → M ε σ α} :
    Post (m >>= f) s Q ↔ Post m s fun r s1 =>
      match r with
      | .ok a => Post (f a) s1 Q
      | .error e => Q (.error e) s1 := by
  constructor
  · intro h r s1 e
    cases r with
    | error x => exact h _ _ (by change M.bind m f s = _; simp only [M.bind]; rw [e])
    | ok a =>
      intro r2 s2 e2
      exact h _ _ (by change M.bind m f s = _; simp only [M.bind]; rw [e]; exact e2)
  · intro h r s' e
    change M.bind m f s = _ at e
    simp only [M.bind] at e
    cases hm : m s with
    | none => rw [hm] at e; cases e
    | some p =>
      obtain ⟨r1, s1⟩ := p
      rw [hm] at e
      cases r1 with
      | error x => cases e; exact h _ _ hm
      | ok a => exact h _ _ hm _ _ e

theorem post_get {Q : Except ε σ → σ → Prop} : Post (get : M ε σ σ) s Q ↔ Q (.ok s) s := by
  constructor
  · intro h; exact h _ _ rfl
  · rintro h r s' ⟨⟩; exact h

theorem post_modify {f : σ → σ} {Q : Except ε Unit → σ → Prop} :
    Post (modify f : M ε σ Unit) s Q ↔ Q (.ok ()) (f s) := by
  constructor
  · intro h; exact h _ _ rfl
  · rintro h r s' ⟨⟩; exact h

theorem post_attempt {m : M ε σ α} {Q : Except ε (Except ε α) → σ → Prop} :
    Post (attempt m) s Q ↔ Post m s fun r s' => Q (.ok r) s' := by
  constructor
  · intro h r s' e; exact h _ _ (by simp only [attempt, e])
  · intro h r s' e
    simp only [attempt] at e
    cases hm : m s with
    | none => rw [hm] at e; cases e
    | some p => obtain ⟨r1, s1⟩ := p; rw [hm] at e; cases e; exact h _ _ hm

theorem post_ofExcept {x : Except ε α} :
    Post (ofExcept x : M ε σ α) s Q ↔ Q x s := by
  cases x
  · exact post_throw
  · exact post_pure

theorem post_bracket {enter : σ → σ} {exit : σ → σ → σ} {m : M ε σ α} :
    Post (bracket enter exit m) s Q ↔ Post m (enter s) fun r s' => Q r (exit s s') := by
  constructor
  · intro h r s' e; exact h _ _ (by simp only [bracket, e])
  · intro h r s' e
    simp only [bracket] at e
    cases hm : m (enter s) with
    | none => rw [hm] at e; cases e
    | some p => obtain ⟨r1, s1⟩ := p; rw [hm] at e; cases e; exact h _ _ hm

theorem post_diverge : Post (diverge : M ε σ α) s Q := fun _ _ e => by cases e

theorem post_ite {c : Prop} [Decidable c] {a b : M ε σ α} :
    Post (if c then a else b) s Q ↔ (c → Post a s Q) ∧ (¬ c → Post b s Q) := by
  split <;> simp_all

end M
end Mcpyrate.Py
