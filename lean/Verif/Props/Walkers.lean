import Verif.Lemmas.Walkers
/-
C09 walker state.

Full property: whenever the visit of a subtree registered by `withstate` ends, the previous state
object is current again and its contents are unaffected by the visit.  This is false of the code
when a temporary state is an empty `Bunch` (it is false as a truth value, see walkers.py:141, 150),
so the theorems carry the hypothesis that no state is empty; the two violations are shown below.
-/
namespace Mcpyrate
open Py Walkers
variable {ν ρ ε : Type}

/-- C09: visiting anything, with any user code and any outcome (return or exception), restores the
state stack below the current entry; and if the visited tree had a state registered, it restores the
whole stack, even if user code rebound `self.state` inside. -/
theorem C09_stack_restored_partial (wk : Walker ν ρ ε) (hk : ∀ t, (wk.examine t).KeepsNonempty)
    (n : Nat) (t : Obj) (w w' : W ν) (hw : Ok w) (res : Except ε ρ)
    (h : visit wk n t w = some (res, w')) :
    Ok w' ∧ w'.stack.tail = w.stack.tail ∧
    (∀ r, Dict.get w.overrides t = some r → w'.stack = w.stack) := by
  have hg := visit_good hk n t w res w' hw h
  refine ⟨hg.ok, hg.tail, ?_⟩
  intro r hr
  cases n with
  | zero => simp [visit] at h
  | succ n =>
    obtain ⟨w3, _, _, rfl⟩ := visit_override hk (visit_good hk n) hw hr h
    rfl

/-- C09: what happens to the temporary state stays there: when a tree with a registered state has
been visited, every state object that was not itself waiting for some subtree — in particular the
previously current state — has the contents it had before. -/
theorem C09_outer_state_unchanged_partial (wk : Walker ν ρ ε)
    (hk : ∀ t, (wk.examine t).KeepsNonempty) (n : Nat) (t : Obj) (w w' : W ν) (hw : Ok w)
    (res : Except ε ρ) (h : visit wk n t w = some (res, w')) (r : Nat)
    (hr : Dict.get w.overrides t = some r) (s : Nat) (hs : s < w.heap.length)
    (hp : ¬ Pending w s) : w'.deref s = w.deref s := by
  cases n with
  | zero => simp [visit] at h
  | succ n =>
    obtain ⟨w3, _, hg, rfl⟩ := visit_override hk (visit_good hk n) hw hr h
    have hne : r ≠ s := by rintro rfl; exact hp ⟨t, Dict.get_mem _ _ _ hr⟩
    exact (hg.frame s hs (fun ⟨t', ht'⟩ => hp ⟨t', mem_del ht'⟩) (by simpa using hne)).1

/-- C09: inside, the current state is the updated copy: if user code calls
`withstate(t, **bindings)` and then visits the node `t`, the code for `t` reads the state that was
current at the `withstate` call, updated with the bindings, and the registration is used up. -/
theorem C09_inner_state_partial (wk : Walker ν ρ ε) (n : Nat) (t : Obj) (w : W ν)
    (hw : Ok w) (top : Nat) (rest : List Nat) (hst : w.stack = top :: rest) (s : State ν)
    (hs : w.deref top = some s) (b : Dict String ν) (k : Except ε ρ → Prog ν ρ ε)
    (inner : State ν → Prog ν ρ ε) (hnode : wk.items t = none) (hex : wk.examine t = .read inner)
    (hwf : Dict.WF w.overrides) :
    ∃ w2 : W ν,
      run (visit wk (n + 1)) (.withstate [t] b (.visit t k)) w =
        (match run (visit wk n) (inner (Dict.update s b)) w2 with
         | none => none
         | some (res, w3) =>
           run (visit wk (n + 1)) (k res)
             (if truthy w3 w.heap.length then { w3 with stack := w3.stack.tail } else w3)) ∧
      w2.stack = w.heap.length :: w.stack ∧ w2.deref w.heap.length = some (Dict.update s b) ∧
      Dict.get w2.overrides t = none ∧ w2.collected = w.collected := by
  have hsne : s ≠ [] := hw.nonempty s (List.mem_of_getElem? hs)
  have hune := Dict.update_ne_nil s b hsne
  let ov := Dict.del (Dict.set w.overrides t w.heap.length) t
  refine ⟨{ w with heap := w.heap ++ [Dict.update s b], stack := w.heap.length :: w.stack,
                   overrides := ov }, ?_, rfl, by simp [W.deref], ?_, rfl⟩
  · simp only [run, hst, hs, register, visit, Dict.get_set, if_true]
    have htr : ∀ (o : Dict Obj Nat) (st : List Nat), truthy
        { heap := w.heap ++ [Dict.update s b], stack := st, overrides := o,
          collected := w.collected } w.heap.length = true := by
      intro o st
      simp only [truthy, W.deref, List.getElem?_concat_length]
      cases hu : Dict.update s b with
      | nil => exact absurd hu hune
      | cons a c => rfl
    simp only [htr, if_true, visitBody, hnode, hex, run, W.deref, List.getElem?_concat_length]
    cases run (visit wk n) (inner (Dict.update s b))
      { heap := w.heap ++ [Dict.update s b], stack := w.heap.length :: top :: rest,
        overrides := Dict.del (Dict.set w.overrides t w.heap.length) t,
        collected := w.collected } with
    | none => rfl
    | some p => rfl
  · show Dict.get ov t = none
    rw [Dict.get_del _ (Dict.WF_set _ _ _ hwf)]
    simp

/-- C09: `collect` only ever appends; nothing a visit does removes or reorders what was collected
before. -/
theorem C09_collected_grows_partial (wk : Walker ν ρ ε) (hk : ∀ t, (wk.examine t).KeepsNonempty)
    (n : Nat) (t : Obj) (w w' : W ν) (hw : Ok w) (res : Except ε ρ)
    (h : visit wk n t w = some (res, w')) : ∃ vs, w'.collected = w.collected ++ vs := by
  obtain ⟨vs, hvs⟩ := (visit_good hk n t w res w' hw h).collected
  exact ⟨vs, hvs.symm⟩

/-- C09: a walker created with at least one binding is usable. -/
theorem C09_init_ok (b : State ν) (hb : b ≠ []) : Ok (init b) := by
  refine ⟨by simp [init], ?_, ?_, ?_⟩
  · simp [init]
  · simp [init]
  · simpa [init] using hb

/-! ### Concrete walkers -/

/-- Two nodes: 0 is the root; it calls `withstate(1, **b)`, visits 1 (catching any exception),
collects what it then finds in its own state, and returns. -/
def Walkers.demo (b : Dict String Nat) (inner : Prog Nat Unit Unit) : Walker Nat Unit Unit where
  items := fun _ => none
  examine := fun t =>
    if t = 0 then
      .withstate [1] b (.visit 1 fun _ => .read fun s =>
        .collect ((Dict.get s "x").getD 99) (.ret ()))
    else inner
  combine := fun _ => ()

/-- C09, violated: if the temporary state is empty (no initial bindings, no new ones), it is not
pushed, so an assignment made inside the subtree is visible outside it. -/
theorem C09_empty_state_violated :
    (visit (demo [] (.write (fun s => Dict.set s "x" 7) (.ret ()))) 3 0 (init [])).map
      (fun p => (p.2.collected, p.2.stack)) = some ([7], [0]) := by decide

/-- C09, violated: if the subtree's code empties its temporary state, the state is not popped
afterwards: the outer code sees the wrong state (no `x`), and the stack has grown. -/
theorem C09_emptied_state_violated :
    (visit (demo [] (.write (fun _ => []) (.ret ()))) 3 0 (init [("x", 1)])).map
      (fun p => (p.2.collected, p.2.stack)) = some ([99], [1, 0]) := by decide

-- Non-vacuity of the positive theorems: a nonempty state, changed inside, with an exception.
example : (visit (demo [("y", 5)] (.write (fun s => Dict.set s "x" 7) (.raise ()))) 3 0
      (init [("x", 1)])).map (fun p => (p.2.collected, p.2.stack, p.2.heap)) =
    some ([1], [0], [[("x", 1)], [("x", 7), ("y", 5)]]) := by decide
example : ∀ t, ((demo [("y", 5)]
    (.write (fun s => Dict.set s "x" 7) (.raise ()))).examine t).KeepsNonempty := by
  intro t
  simp only [demo]
  split
  · intro r s; trivial
  · exact ⟨fun s _ => Dict.set_ne_nil _ _ _, trivial⟩
-- The inner code sees the updated copy, the outer code its own state.
example : (visit (demo [("y", 5)] (.read fun s => .collect ((Dict.get s "x").getD 99 + (Dict.get s "y").getD 99) (.ret ()))) 3 0
    (init [("x", 1)])).map (·.2.collected) = some [6, 1] := by decide
end Mcpyrate
