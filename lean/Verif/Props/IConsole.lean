import Verif.Lemmas.IConsole
import Verif.Spec.IConsoleExample
/-
C64: macros in IPython (`mcpyrate.repl.iconsole`).  The full statement: the macro-imports of a cell hold from that cell on,
the latest one counts; a cell that cannot be expanded is rejected, with the message of the error, it is not run, and the
session goes on; loading the extension twice changes nothing; after unloading it macros are not expanded any more, and
`%macros` shows the macros that are in effect; `%%dump_ast` can show the expansion of a cell in each mode.  Unloading has no such effect
(`C64_unload_violated`), therefore after loading the extension again `%macros` does not show what is in effect
(`C64_reload_violated`); and `%%dump_ast` cannot expand in the mode `eval` (`C64_eval_violated`).
-/
namespace Mcpyrate
open Py Expander GetMacros Compiler Modules RunCode IConsole

variable {υ μ : Type}

/-- C64: the outcome is determined by the cell and the session. -/
theorem C64_deterministic (K : IConsole.Tools υ μ) (t : Val) (sh s1 s2 : Shell υ) (r1 r2 : Except Raised Unit)
    (h1 : Deals K t sh r1 s1) (h2 : Deals K t sh r2 s2) : r1 = r2 ∧ s1 = s2 := h1.det h2

/-- C64: the macro-imports of a cell are run, with the variables of the user as `__self__`; then the cell is expanded, with the
new bindings.  The new bindings are kept if all macro-imports succeeded. -/
theorem C64_transform (K : IConsole.Tools υ μ) (hM : K.con.metadata.WF) (hk : KeepRegistry K.con.post) (i : Nat) (t : Val)
    (ht : IsCell t) (sh sh' : Shell υ) (r : Except Raised Val) (h : Transforms K i t sh r sh') :
    ∃ b, Transformed K i t sh b r sh' := by
  obtain ⟨n, h⟩ := h
  exact transform_spec hM hk ht h

/-- C64: whatever tree it is given, the transformer raises nothing but InputRejected, unless the exception is not an
`Exception`.  (IPython would drop the transformer if it raised anything else.) -/
theorem C64_rejects (K : IConsole.Tools υ μ) (i : Nat) (t : Val) (sh sh' : Shell υ) (x : Raised)
    (h : Transforms K i t sh (.error x) sh') : (∃ e, x = .rejected e ∧ ¬ Interrupt e) ∨ ∃ e, x = .other e ∧ Interrupt e := by
  obtain ⟨n, h⟩ := h
  obtain ⟨⟨r0, s⟩, _, hx⟩ := Option.map_eq_some_iff.1 h
  have he := ends r0
  cases r0 with
  | ok v => cases hx
  | error e =>
    cases hx
    dsimp only at he
    generalize reject e = x at he ⊢
    cases he with
    | rejected h => exact .inl ⟨_, rfl, h⟩
    | interrupted h => exact .inr ⟨_, rfl, h⟩

/-- C64: a cell is run once, after it was expanded; if it cannot be expanded, it is not run.  Both ways the functions of
the macros are imported then, if there were macro-imports. -/
theorem C64_cell (K : IConsole.Tools υ μ) (hM : K.con.metadata.WF) (hk : KeepRegistry K.con.post) (hC : Calm K) (i : Nat)
    (t : Val) (ht : IsCell t) (sh sh' : Shell υ) (h1 : sh.transformers = [i]) (h2 : sh.events = [i])
    (r : Except Raised Unit) (h : Deals K t sh r sh') : ∃ b, Dealt K i t sh b r sh' := cell_spec hM hk hC ht h1 h2 h

/-- C64: as long as one extension is registered, the cells of a session can be seen with the bindings of their
macro-imports. -/
theorem C64_inputs (K : IConsole.Tools υ μ) (hM : K.con.metadata.WF) (hk : KeepRegistry K.con.post) (hC : Calm K) (i : Nat)
    (ts : List Val) (ht : ∀ t ∈ ts, IsCell t) (sh sh' : Shell υ) (h1 : sh.transformers = [i]) (h2 : sh.events = [i])
    (h : Cells K sh ts sh') : ∃ bs, bs.map (·.1) = ts ∧ Inputs K i sh bs sh' := by
  induction h with
  | nil => exact ⟨[], rfl, .nil⟩
  | @cons t ts sh r sh1 sh' ha _ ih =>
    obtain ⟨n, hn⟩ := ha
    have hs := cell_same hC hn
    obtain ⟨bs, rfl, hi⟩ := ih (fun t h => ht t (by simp [h])) (by rw [hs.2.2.1, h1]) (by rw [hs.2.2.2.1, h2])
    obtain ⟨b, hb⟩ := cell_spec hM hk hC (ht t (by simp)) h1 h2 ⟨n, hn⟩
    exact ⟨(t, b) :: bs, rfl, .cons hb hi⟩

/-- C64, partly: after any cells, a name is bound to what the last macro-import of that name gave; if there was none, to what
it was bound to in the beginning.  Partly, because this is about one extension, in a session where it is not unloaded. -/
theorem C64_history_partial (K : IConsole.Tools υ μ) (hS : IConsole.Stable K) (i : Nat)
    (bs : List (Val × Dict String Nat)) (sh sh' : Shell υ) (h : IConsole.Inputs K i sh bs sh') (k : String) (f : Nat) :
    (sh'.exts i).bindings.get k = some f ↔
      (∃ before x after, bs = before ++ x :: after ∧ x.2.get k = some f ∧ ∀ y ∈ after, y.2.get k = none) ∨
      ((sh.exts i).bindings.get k = some f ∧ ∀ y ∈ bs, y.2.get k = none) := by
  induction h with
  | nil =>
    constructor
    · intro h; exact .inr ⟨h, by simp⟩
    · rintro (⟨before, x, after, h, _⟩ | ⟨h, _⟩)
      · cases before <;> cases h
      · exact h
  | @cons t b rest sh r sh1 sh' hc _ ih =>
    have hadd := hc.bindings hS
    rw [ih, hadd k]
    constructor
    · rintro (⟨before, y, after, rfl, h1, h2⟩ | ⟨h1, h2⟩)
      · exact .inl ⟨(t, b) :: before, y, after, rfl, h1, h2⟩
      · cases hb : b.get k with
        | some g =>
          rw [hb] at h1
          exact .inl ⟨[], (t, b), rest, rfl, hb.trans h1, h2⟩
        | none =>
          rw [hb] at h1
          refine .inr ⟨h1, fun y hy => ?_⟩
          rcases List.mem_cons.1 hy with rfl | hy
          · exact hb
          · exact h2 y hy
    · rintro (⟨before, y, after, he, h1, h2⟩ | ⟨h1, h2⟩)
      · cases before with
        | nil =>
          cases he
          exact .inr ⟨by rw [show b.get k = some f from h1]; rfl, h2⟩
        | cons z before =>
          cases he
          exact .inl ⟨before, y, after, rfl, h1, h2⟩
      · refine .inr ⟨?_, fun y hy => h2 y (by simp [hy])⟩
        rw [show b.get k = none from h2 (t, b) (by simp)]
        exact h1

/-- C64: loading the extension registers it, without bindings; loading it again changes nothing. -/
theorem C64_load (setup : State υ → State υ) (sh : Shell υ) (h : sh.current = none) :
    (load setup sh).current = some sh.next ∧ (load setup sh).transformers = sh.transformers ++ [sh.next] ∧
      (load setup sh).events = sh.events ++ [sh.next] ∧ (load setup sh).exts sh.next = ⟨[], false⟩ ∧
      (∀ j, j ≠ sh.next → (load setup sh).exts j = sh.exts j) ∧ (load setup sh).variable_ = some sh.next ∧
      load setup (load setup sh) = load setup sh := by
  have he : load setup sh = { new setup sh with current := some sh.next } := by unfold load; rw [h]
  rw [he]
  exact ⟨rfl, rfl, rfl, if_pos rfl, fun _ hj => if_neg hj, rfl, rfl⟩

/-- C64: `%macros` shows the local bindings of the instance that was loaded last. -/
theorem C64_macros (sh : Shell υ) (i : Nat) (h : sh.current = some i) :
    shownMacros sh = .ok (sh.exts i).bindings := by unfold shownMacros; rw [h]

/-- C64: `%%dump_ast` shows the parsed cell, and nothing happens; or what the transformer makes of it. -/
theorem C64_dump (K : IConsole.Tools υ μ) (t : Val) (sh sh' : Shell υ) (r : Except Raised Val) (i : Nat)
    (hi : sh.current = some i) :
    ((∃ n, dumpAst K n false t sh = some (r, sh')) ↔ r = .ok t ∧ sh' = sh) ∧
    ((∃ n, dumpAst K n true t sh = some (r, sh')) ↔ Transforms K i t sh r sh') := by
  have h1 : ∀ n, dumpAst K n false t sh = some (.ok t, sh) := fun n => rfl
  have h2 : ∀ n, dumpAst K n true t sh = transform K n i t sh := fun n => by
    show (match sh.current with
      | none => M.throw (.other (.py .attributeError))
      | some i => transform K n i t : I υ Val) sh = _
    rw [hi]
  constructor
  · simp only [h1]
    constructor
    · rintro ⟨_, h⟩; cases h; exact ⟨rfl, rfl⟩
    · rintro ⟨rfl, rfl⟩; exact ⟨0, rfl⟩
  · simp only [h2]
    exact Iff.rfl

/-- C64: after the extension was unloaded, until it is loaded again, `%macros` and `%%dump_ast` with expansion raise
AttributeError. -/
theorem C64_unloaded (K : IConsole.Tools υ μ) (t : Val) (n : Nat) (sh : Shell υ) :
    shownMacros (unload sh) = .error .attributeError ∧
      dumpAst K n true t (unload sh) = some (.error (.other (.py .attributeError)), unload sh) := by
  have h : (unload sh).current = none := by
    unfold unload
    cases hc : sh.current with
    | none => exact hc
    | some i =>
      dsimp only
      split <;> rfl
  constructor
  · unfold shownMacros; rw [h]
  · show (match (unload sh).current with
      | none => M.throw (.other (.py .attributeError))
      | some i => transform K n i t : I υ Val) (unload sh) = _
    rw [h]; rfl
example : shownMacros (unload (load IConsole.Ex.setup IConsole.Ex.start)) = .error .attributeError :=
  (C64_unloaded IConsole.Ex.tools IConsole.Ex.useF 0 _).1

/-! The extension of the examples meets the hypotheses. -/

example : IConsole.Stable IConsole.Ex.tools ∧ Calm IConsole.Ex.tools ∧ IConsole.Ex.tools.con.metadata.WF ∧
    KeepRegistry IConsole.Ex.tools.con.post := by
  refine ⟨⟨⟨fun i a x => ?_, fun _ _ _ _ _ => rfl⟩, fun _ _ _ h => by cases h; rfl, fun _ _ _ h => by cases h; rfl⟩,
    ⟨fun _ _ _ h => by cases h; exact ⟨rfl, rfl, rfl, rfl, rfl⟩, fun _ _ _ h => by cases h; exact ⟨rfl, rfl, rfl, rfl, rfl⟩⟩,
    by unfold Dict.WF; decide, fun _ _ _ _ _ h => by cases h; rfl⟩
  change Prog.Ends _ x x (if i = 1 then _ else _)
  split <;> rfl

private theorem isCell_import (m : String) (ns : List (String × Option String)) :
    IsCell (IConsole.Ex.code [GetMacros.Ex.absolute m ns]) := by
  refine ⟨_, rfl, fun t ht => ?_⟩
  rw [List.mem_singleton.1 ht]
  exact ⟨fun _ => ⟨_, _, _, rfl, rfl⟩, fun _ h => (by cases h)⟩
example : IsCell IConsole.Ex.importF := isCell_import _ _
example : IsCell IConsole.Ex.useF := by
  refine ⟨_, rfl, fun t ht => ?_⟩
  rw [List.mem_singleton.1 ht]
  exact ⟨fun h => (by cases h), fun h => (by cases h)⟩

/-- A session: a macro-import, which is run, and then the function of the macro is imported; a use; a variable of the user as a macro;
a module that raises RuntimeError, so the cell is rejected; a macro that raises, so the cell is rejected, too; a use. -/
example : (IConsole.Ex.play 20 [.load, .cell IConsole.Ex.importF, .cell IConsole.Ex.useF, .cell IConsole.Ex.importK,
      .cell IConsole.Ex.importBad, .cell IConsole.Ex.importG, .cell IConsole.Ex.useG, .cell IConsole.Ex.useF]
      IConsole.Ex.start).map (fun y => (y.1.map fun r => match r with
          | .ok _ => 0
          | .error (.rejected (.py .runtimeError)) => 1
          | .error (.rejected (.app _ (.user 7 true))) => 2
          | .error _ => 3, (y.2.exts 0).bindings, y.2.transformers, y.2.state.user.2)) =
    some ([0, 0, 0, 1, 0, 2, 0], [("f", 1), ("k", 1), ("g", 2)], [0], 10) := by decide +kernel

/-! Where the property fails. -/

/-- C64: unloading the extension has no effect on how cells are expanded: in no session is anything unregistered by it.
(`__del__` would do that, but what is registered refers to the extension, so that is not called.) -/
theorem C64_unload_violated (K : IConsole.Tools υ μ) (hC : Calm K) (setup : State υ → State υ) (e : Nat → Ext) (p : State υ)
    (sh : Shell υ) (h : IConsole.Session K setup e p sh) :
    (unload sh).transformers = sh.transformers ∧ (unload sh).events = sh.events ∧ (unload sh).inputs = sh.inputs ∧
      (unload sh).exts = sh.exts ∧ (unload sh).variable_ = sh.variable_ ∧ (unload sh).state = sh.state := by
  rw [unload_eq (h.registered hC)]
  exact ⟨rfl, rfl, rfl, rfl, rfl, rfl⟩

example : IConsole.Session IConsole.Ex.tools IConsole.Ex.setup (fun _ => ⟨[], false⟩) IConsole.Ex.world
    (load IConsole.Ex.setup IConsole.Ex.start) := .load .start
/-- The macro `g`, which raises, is still expanded after the extension was unloaded. -/
example : (IConsole.Ex.play 20 [.load, .cell IConsole.Ex.importG, .unload, .cell IConsole.Ex.useG] IConsole.Ex.start).map
      (fun y => (y.1.map fun r => match r with | .ok _ => 0 | .error (.rejected (.app _ (.user 7 true))) => 2 | .error _ => 3,
        y.2.transformers, match shownMacros y.2 with | .error .attributeError => true | _ => false)) =
    some ([0, 2], [0], true) := by decide +kernel

/-- C64: after the extension was unloaded and loaded again, `%macros` shows nothing, although the macro that was imported
before is still expanded; and that is so for macros that are imported from now on, too. -/
theorem C64_reload_violated :
    (IConsole.Ex.play 20 [.load, .unload, .load, .cell IConsole.Ex.importG, .cell IConsole.Ex.useG] IConsole.Ex.start).map
      (fun y => (y.1.map fun r => match r with | .ok _ => 0 | .error (.rejected (.app _ (.user 7 true))) => 2 | .error _ => 3,
        (shownMacros y.2).toOption.map fun b => b.keys, (y.2.exts 0).bindings)) =
    some ([0, 2], some [], [("g", 2)]) := by
  decide +kernel

/-- C64: a tree whose body is not a list, as `%%dump_ast --mode eval` makes it, is always rejected: the transformer looks for
macro-imports in it. -/
theorem C64_eval_violated (K : IConsole.Tools υ μ) (i : Nat) (t : Val) (hb : ∀ body, t.get? .body ≠ some (.list body))
    (sh sh' : Shell υ) (r : Except Raised Val) (h : Transforms K i t sh r sh') :
    ∃ e, r = .error (.rejected (.py e)) ∧ (sh'.exts i).bindings = (sh.exts i).bindings := by
  obtain ⟨n, h⟩ := h
  obtain ⟨⟨r0, s⟩, h1, hx⟩ := Option.map_eq_some_iff.1 h
  simp only [Prod.mk.injEq] at hx
  have key : ∃ e, r0 = .error (.py e) ∧ s.bindings = (sh.exts i).bindings := by
    unfold expandCell at h1
    rcases bind_cases h1 with ⟨e, h2, rfl⟩ | ⟨_, s2, h2, h3⟩
    · unfold Console.sync at h2
      split at h2
      · cases h2
      · cases h2; exact ⟨_, rfl, rfl⟩
      · cases h2; exact ⟨_, rfl, rfl⟩
    · have hs : s2.bindings = (sh.exts i).bindings := by
        unfold Console.sync at h2
        split at h2
        · cases h2; rfl
        · cases h2
        · cases h2
      obtain ⟨e, he⟩ : ∃ e, Console.bodyOf t = .error e := by
        unfold Console.bodyOf
        split
        · rename_i body hx
          exact absurd hx (hb body)
        · exact ⟨_, rfl⟩
        · exact ⟨_, rfl⟩
      rcases bind_cases h3 with ⟨e', h4, rfl⟩ | ⟨_, s3, h4, _⟩
      · unfold Console.findMacrosIn at h4
        rw [he] at h4
        cases h4
        exact ⟨_, rfl, hs⟩
      · unfold Console.findMacrosIn at h4
        rw [he] at h4
        cases h4
  obtain ⟨e, rfl, hs⟩ := key
  refine ⟨e, hx.1.symm, ?_⟩
  rw [← hx.2]
  show (if i = i then _ else _ : Ext).bindings = _
  rw [if_pos rfl]
  exact hs
example : ∀ body, (mk .Expression [(.body, name "x")]).get? .body ≠ some (.list body) := by
  intro body h; cases h

end Mcpyrate
