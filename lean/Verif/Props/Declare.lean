import Verif.Lemmas.Declare
/-
C70 what the declarations `@namemacro` and `@parametricmacro` apply to.
-/
namespace Mcpyrate
open Declare

/-- C70: after any history, `isnamemacro` (`isparametricmacro`) is true of exactly the objects that have been declared:
the object itself, its class or a base class, the function of a bound method; or one of these has taken over the
declaration by `functools.wraps` from an object that had been declared by then. -/
theorem C70_declared (ops : List Op) (m : Mark) (o : Nat) :
    isDeclared (run ops) m o = true ↔ Declared ops m o := by
  have hi := inv_run ops
  unfold isDeclared Declared
  cases hg : (run ops).get o with
  | error e =>
    simp only [Bool.false_eq_true, false_iff]
    rintro ⟨p, hs, _⟩
    obtain ⟨x, hx⟩ := hi.exist _ hs.isObject
    rw [hg] at hx; cases hx
  | ok x =>
    simp only [List.any_eq_true]
    constructor
    · rintro ⟨p, hp, h⟩
      exact ⟨p, ((hi.fits o x hg).places p).mp hp, (own_run ops m p).mp h⟩
    · rintro ⟨p, hp, h⟩
      exact ⟨p, ((hi.fits o x hg).places p).mpr hp, (own_run ops m p).mpr h⟩

/-- C70: a declaration stays, whatever happens later. -/
theorem C70_stays (ops ops' : List Op) (m : Mark) (o : Nat) (h : isDeclared (run ops) m o = true) :
    isDeclared (run (ops ++ ops')) m o = true := by
  obtain ⟨p, hp, hm⟩ := (C70_declared ops m o).mp h
  refine (C70_declared _ m o).mpr ⟨p, ?_, hm.mono ops'⟩
  rw [made_append]
  exact hp.mono

/-- C70: the decorator returns the object it is given, which is then declared, if attributes of the object can be set;
otherwise it raises (AttributeError, if there is an object), and nothing changes. -/
theorem C70_decorator (ops : List Op) (m : Mark) (o : Nat) :
    (HasOwn (made ops) o ∧ (step (run ops) (.declare m o)).1 = .ok o ∧
        isDeclared (run (ops ++ [.declare m o])) m o = true) ∨
      (¬ HasOwn (made ops) o ∧ (IsObject (made ops) o → (step (run ops) (.declare m o)).1 = .error .attributeError) ∧
        (¬ IsObject (made ops) o → (step (run ops) (.declare m o)).1 = .error .nameError) ∧
        run (ops ++ [.declare m o]) = run ops) := by
  have hi := inv_run ops
  by_cases ho : HasOwn (made ops) o
  · obtain ⟨x, hx⟩ := hi.exist o (.own ho)
    refine .inl ⟨ho, ?_, (C70_declared _ m o).mpr ⟨o, ?_, .declared ho⟩⟩
    · show (declare (run ops) m o).1 = _
      unfold declare
      simp only [hx, (hi.fits o x hx).settable.mpr ho, if_true]
    · rw [made_append]
      exact (Sees.self ho).mono
  · refine .inr ⟨ho, ?_⟩
    rw [run_snoc]
    show (_ → (declare (run ops) m o).1 = _) ∧ (_ → (declare (run ops) m o).1 = _) ∧ (declare (run ops) m o).2 = run ops
    unfold declare
    cases hx : (run ops).get o with
    | error e =>
      refine ⟨fun h => ?_, fun _ => ?_, rfl⟩
      · obtain ⟨x, hx'⟩ := hi.exist o h
        rw [hx] at hx'; cases hx'
      · unfold Heap.get at hx
        split at hx <;> cases hx
        rfl
    | ok x =>
      have hs : x.settable = false := Bool.eq_false_iff.mpr fun h => ho ((hi.fits o x hx).settable.mp h)
      simp only [hs, Bool.false_eq_true, if_false]
      exact ⟨fun _ => trivial, fun h => absurd (hi.fits o x hx).obj h, trivial⟩

/-- C70: declaring an object says nothing about other objects, except those that see its attributes; and nothing about
the other declaration. -/
theorem C70_others (ops : List Op) (m m' : Mark) (o o' : Nat) (h : m' ≠ m ∨ ¬ Sees (made ops) o' o) :
    isDeclared (run (ops ++ [.declare m o])) m' o' = isDeclared (run ops) m' o' := by
  rw [Bool.eq_iff_iff, C70_declared, C70_declared]
  unfold Declared
  rw [made_append]
  simp only [made, List.append_nil]
  constructor
  · rintro ⟨p, hp, hm⟩
    rcases marked_snoc.mp hm with hm | ⟨heq, _⟩ | ⟨g, q, heq, _⟩
    · exact ⟨p, hp, hm⟩
    · cases heq
      rcases h with h | h
      · exact absurd rfl h
      · exact absurd hp h
    · cases heq
  · rintro ⟨p, hp, hm⟩
    exact ⟨p, hp, hm.mono _⟩

/-- C70: a function that a decorator has put around a macro is not declared, unless it is declared itself, or made with
`functools.wraps`: the declaration has to be the outermost decorator. -/
theorem C70_outermost (ops : List Op) (m : Mark) (o : Nat) (hf : (made ops)[o]? = some .function)
    (hd : Op.declare m o ∉ ops) (hw : ∀ g, Op.wraps g o ∉ ops) : isDeclared (run ops) m o = false := by
  rw [Bool.eq_false_iff]
  intro h
  obtain ⟨p, hp, hm⟩ := (C70_declared ops m o).mp h
  have : p = o := by
    cases hp with
    | self _ => rfl
    | base _ h1 _ _ => rw [hf] at h1; cases h1
    | inst h1 _ => have := h1.1; rw [hf] at this; cases this
    | method h1 _ _ => rw [hf] at h1; cases h1
  subst this
  cases hm with
  | declared _ => exact hd (by simp)
  | wraps _ _ _ => exact hw _ (List.mem_append_right _ List.mem_cons_self)

/-- C70: what the expander does with a macro: a name is an invocation if it is bound to an object that has been declared
as an identifier macro; another invocation may have macro arguments, if the object has been declared as parametric.  (The
numbers of the objects are those of the bindings.) -/
theorem C70_invoked {υ : Type} (E : Expander.Env υ) (w : Expander.World υ) (ops : List Op)
    (hn : ∀ i, (E.macros i).isName = isDeclared (run ops) .name i)
    (hp : ∀ i, (E.macros i).isParam = isDeclared (run ops) .param i)
    (k : String) (hk : k ≠ "") (args : List Py.Val) (s : Expander.Syn) :
    Expander.ismacrocall E w (some (k, args)) s = true ↔
      ∃ i, Expander.isbound w k = some i ∧
        ((s = .name ∧ Declared ops .name i) ∨ (s ≠ .name ∧ (args = [] ∨ Declared ops .param i))) := by
  unfold Expander.ismacrocall
  simp only [hk, if_false]
  cases Expander.isbound w k with
  | none => simp
  | some i =>
    simp only [Option.some.injEq, exists_eq_left', hn, hp]
    by_cases hs : s = .name
    · simp [hs, C70_declared]
    · simp [hs, C70_declared]

/-! Concrete cases: a declared function (0), a plain wrapper (1), a wrapper with `functools.wraps` (2), a builtin (3), a
class (4) with a base class (5 inherits 4), an instance (6) and its bound method over function 0 (7). -/

/-- The history. -/
def Case.history : List Op :=
  [.define .function, .declare .name 0, .define .function, .define .function, .wraps 0 2, .declare .param 0,
   .define .builtin, .declare .name 3, .define (.cls []), .define (.cls [4]), .define (.inst 5), .declare .param 4,
   .define (.method 0), .declare .param 7, .define (.inst 0)]

example : (List.range 9).map (isDeclared (run Case.history) .name) =
    [true, false, true, false, false, false, false, true, false] := by decide +kernel

example : (List.range 9).map (isDeclared (run Case.history) .param) =
    [true, false, false, false, true, true, true, true, false] := by decide +kernel

example : Declared Case.history .param 6 := (C70_declared _ _ _).mp (by decide +kernel)
example : ¬ Declared Case.history .param 2 := fun h => absurd ((C70_declared _ _ _).mpr h) (by decide +kernel)
example : (step (run Case.history) (.declare .name 3)).1 = .error .attributeError := by decide +kernel
example : (step (run Case.history) (.declare .name 1)).1 = .ok 1 := by decide +kernel
example : isDeclared (run (Case.history ++ [.declare .name 1])) .name 1 = true := by decide +kernel
example : isDeclared (run Case.history) .name 1 = false :=
  C70_outermost _ _ _ (by decide +kernel) (by decide +kernel)
    (fun g hg => by simp [Case.history] at hg)

end Mcpyrate
