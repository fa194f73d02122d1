import Verif.Model.Activate
/-
C48 Activation hooks install and restore cleanly.  (The property is about calls of `activate` and
`deactivate`.  If the module `mcpyrate.activate` itself is reloaded while it is active, then it takes its own
hooks for the standard ones: `C48_reload_violated`.)
-/
namespace Mcpyrate
open Activate

/-- mcpyrate's hooks are in effect. -/
def Active (s : St) : Prop := s.sourceToCode = .sourceToXcode ∧ s.pathStats = .pathXstats

/-- The hooks that were there before the import of mcpyrate are in effect. -/
def Original (s0 s : St) : Prop := s.sourceToCode = s0.sourceToCode ∧ s.pathStats = s0.pathStats

/-- The last call that changes anything is `activate` (importing the module counts as one). -/
def lastIsActivate (calls : List Call) : Bool := calls.getLast? != some .deactivate

private theorem run_inv (s0 : St) (calls : List Call) (hr : Call.reload ∉ calls) :
    (run s0 calls).savedSourceToCode = some s0.sourceToCode ∧
    (run s0 calls).savedPathStats = some s0.pathStats ∧
    (lastIsActivate calls = true → Active (run s0 calls)) ∧
    (lastIsActivate calls = false → Original s0 (run s0 calls)) := by
  suffices h : ∀ (rev : List Call), Call.reload ∉ rev →
      (run s0 rev.reverse).savedSourceToCode = some s0.sourceToCode ∧
      (run s0 rev.reverse).savedPathStats = some s0.pathStats ∧
      (lastIsActivate rev.reverse = true → Active (run s0 rev.reverse)) ∧
      (lastIsActivate rev.reverse = false → Original s0 (run s0 rev.reverse)) by
    have := h calls.reverse (by simpa using hr)
    rwa [List.reverse_reverse] at this
  intro rev
  induction rev with
  | nil => exact fun _ => ⟨rfl, rfl, fun _ => ⟨rfl, rfl⟩, fun h => by cases h⟩
  | cons c cs ih =>
    intro hr
    simp only [List.mem_cons, not_or] at hr
    obtain ⟨h1, h2, _, _⟩ := ih hr.2
    have hrun : run s0 (c :: cs).reverse = step (run s0 cs.reverse) c := by
      simp [run, List.foldl_append]
    have hlast : lastIsActivate (c :: cs).reverse = (c != .deactivate) := by
      simp only [lastIsActivate, List.getLast?_reverse, List.head?_cons]
      cases c <;> rfl
    rw [hrun, hlast]
    cases c with
    | activate => exact ⟨h1, h2, fun _ => ⟨rfl, rfl⟩, fun h => by cases h⟩
    | deactivate =>
      have hs : step (run s0 cs.reverse) .deactivate = { run s0 cs.reverse with
          ownSourceToCode := some s0.sourceToCode, ownPathStats := some s0.pathStats } := by
        simp only [step, deactivate, h1, h2]
      rw [hs]
      exact ⟨h1, h2, (fun h => by cases h), (fun _ => ⟨rfl, rfl⟩)⟩
    | reload => exact absurd rfl hr.1

/-- C48: after importing mcpyrate and any sequence of calls, its hooks are in effect if the last call was
`activate` (or there was none), and otherwise the original ones, whatever these were. -/
theorem C48_last_call (s0 : St) (calls : List Call) (hr : Call.reload ∉ calls) :
    (calls.getLast? ≠ some .deactivate → Active (run s0 calls)) ∧
    (calls.getLast? = some .deactivate → Original s0 (run s0 calls)) := by
  obtain ⟨_, _, h1, h2⟩ := run_inv s0 calls hr
  exact ⟨fun h => h1 (by simpa [lastIsActivate] using h), fun h => h2 (by simp [lastIsActivate, h])⟩

/-- C48: in a Python where nothing else has been patched, the original hooks are the standard ones; so
mcpyrate's are in effect exactly when the last call was `activate`. -/
theorem C48_standard (calls : List Call) (hr : Call.reload ∉ calls) :
    (Active (run pristine calls) ↔ calls.getLast? ≠ some .deactivate) ∧
    (calls.getLast? = some .deactivate → (run pristine calls).sourceToCode = .stdlibSourceToCode ∧
      (run pristine calls).pathStats = .stdlibPathStats) := by
  obtain ⟨h1, h2⟩ := C48_last_call pristine calls hr
  refine ⟨⟨fun ha hl => ?_, h1⟩, h2⟩
  have := (h2 hl).1
  rw [ha.1] at this
  cases this

example : (run pristine [.deactivate, .activate, .deactivate, .deactivate]).sourceToCode = .stdlibSourceToCode ∧
    (run pristine [.deactivate, .deactivate, .activate, .activate]).pathStats = .pathXstats := by decide
example : Call.reload ∉ [Call.deactivate, .activate, .deactivate] := by decide

/-- Reloading an inactive mcpyrate activates it and does no harm: afterwards it can be deactivated. -/
theorem C48_reload_inactive (s0 : St) (calls calls' : List Call) (hr : Call.reload ∉ calls)
    (hr' : Call.reload ∉ calls') (hl : calls.getLast? = some .deactivate) :
    (calls'.getLast? ≠ some .deactivate → Active (run s0 (calls ++ .reload :: calls'))) ∧
    (calls'.getLast? = some .deactivate → Original s0 (run s0 (calls ++ .reload :: calls'))) := by
  have hrun : run s0 (calls ++ .reload :: calls') = run (run s0 calls) calls' := by
    simp [run, List.foldl_append, step]
  obtain ⟨h1, h2⟩ := C48_last_call (run s0 calls) calls' hr'
  have ho := (C48_last_call s0 calls hr).2 hl
  rw [hrun]
  exact ⟨h1, fun h => ⟨(h2 h).1.trans ho.1, (h2 h).2.trans ho.2⟩⟩

/-- C48 fails if the module is reloaded while active: it can no longer be deactivated. -/
theorem C48_reload_violated (calls : List Call) : Active (run pristine (.reload :: calls)) := by
  have h : ∀ (calls : List Call) (s : St), s.savedSourceToCode = some .sourceToXcode → s.savedPathStats = some .pathXstats →
      Active s → Active (calls.foldl step s) := by
    intro calls
    induction calls with
    | nil => exact fun s _ _ h => h
    | cons c cs ih =>
      intro s h1 h2 h3
      rw [List.foldl_cons]
      cases c with
      | activate => exact ih _ h1 h2 ⟨rfl, rfl⟩
      | deactivate =>
        have : step s .deactivate = { s with ownSourceToCode := some .sourceToXcode, ownPathStats := some .pathXstats } := by
          simp only [step, deactivate, h1, h2]
        rw [this]
        exact ih _ h1 h2 ⟨rfl, rfl⟩
      | reload =>
        refine ih _ ?_ ?_ ⟨rfl, rfl⟩
        · change some s.sourceToCode = _; rw [h3.1]
        · change some s.pathStats = _; rw [h3.2]
  exact h calls _ rfl rfl ⟨rfl, rfl⟩

end Mcpyrate
