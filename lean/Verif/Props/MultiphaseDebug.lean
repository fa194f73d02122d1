import Verif.Lemmas.MultiphaseDebug
import Verif.Props.Multiphase
import Verif.Props.Outermost
import Verif.Spec.ExpanderExample
/-
C68 The debug mode of the multi-phase compiler (`from mcpyrate.debug import macros, step_phases`) shows each phase before it
is compiled, and changes nothing else.  What the phases themselves print is part of the state, so that its order relative
to the report is not visible here, except that a report ends with the phase that failed.
-/
namespace Mcpyrate
open Py Modules Multiphase

variable {τ : Type}

/-- C68: compiling with reports gives the same result, or the same exception, in the same state, as compiling without
(`multiphaseExpand`, which C39 and C40 are about). -/
theorem C68_same (P : Host) (C : Compiler τ) (F : Format) (self : Str) (filename : Arg) (uuid : Str) (body : List Val)
    (s : Sys × τ) (out : List Str) (hi : ImportsParsed body) :
    let r := multiphaseExpandOut P C F self filename uuid body (s, out)
    (r.1, r.2.1) = multiphaseExpand P C self filename uuid body s := by
  have hd : ∃ d, isdebug body = .ok d := by
    rcases isdebug_eq hi with ⟨h, _⟩ | ⟨h, _⟩ <;> exact ⟨_, h⟩
  obtain ⟨d, hd⟩ := hd
  dsimp only
  unfold multiphaseExpandOut multiphaseExpand
  cases detectHighest body none with
  | error e => rfl
  | ok n =>
    dsimp only
    rw [hd]
    dsimp only
    rw [say_state]
    cases createModule P (.str self) filename false uuid s.1 with
    | mk r s1 =>
      cases r with
      | error e => rfl
      | ok m =>
        dsimp only
        cases n with
        | none => rfl
        | some n =>
          dsimp only
          rw [← loopOut_same (F := F) (debug := d) (head := phaseLine F self filename) n body
            ((s1, s.2), (say d (startLine F self filename) (s, out)).2)]
          cases loopOut C F d (phaseLine F self filename) m n body
            ((s1, s.2), (say d (startLine F self filename) (s, out)).2) with
          | mk r s2 =>
            cases r with
            | error e => rfl
            | ok x => cases x <;> rfl

/-- C68: a module without that import compiles silently. -/
theorem C68_quiet (P : Host) (C : Compiler τ) (F : Format) (self : Str) (filename : Arg) (uuid : Str) (body : List Val)
    (s : Sys × τ) (out : List Str) (hi : ImportsParsed body) (h : ¬ ∃ t ∈ body, IsStepImport t) :
    (multiphaseExpandOut P C F self filename uuid body (s, out)).2.2 = out := by
  have hd : isdebug body = .ok false := by
    rcases isdebug_eq hi with ⟨_, h'⟩ | ⟨h, _⟩
    · exact absurd h' h
    · exact h
  unfold multiphaseExpandOut
  cases detectHighest body none with
  | error e => rfl
  | ok n =>
    dsimp only
    rw [hd]
    dsimp only [say]
    simp only [Bool.false_eq_true, if_false]
    cases createModule P (.str self) filename false uuid s.1 with
    | mk r s1 =>
      cases r with
      | error e => rfl
      | ok m =>
        dsimp only
        cases n with
        | none => rfl
        | some n =>
          dsimp only
          have := loopOut_quiet (C := C) (F := F) (head := phaseLine F self filename) (module := m) n body ((s1, s.2), out)
          cases hl : loopOut C F false (phaseLine F self filename) m n body ((s1, s.2), out) with
          | mk r s2 =>
            rw [hl] at this
            cases r with
            | error e => exact this
            | ok x => cases x <;> exact this

/-- C68: with the import, the report says which module is compiled, and then, for the phases from the highest down to the
one where compilation ended, shows the heading, and the code as it is compiled, before it is compiled. -/
theorem C68_report (P : Host) (C : Compiler τ) (F : Format) (self : Str) (filename : Arg) (uuid : Str)
    (body : List Val) (s : Sys × τ) (out : List Str) (m : Nat) (s1 : Sys) (hp : Parsed body) (hi : ImportsParsed body)
    (h : ∃ t ∈ body, IsStepImport t) (hc : createModule P (.str self) filename false uuid s.1 = (.ok m, s1)) :
    ∃ n ls r s2, Highest body n ∧ Reported C F (heading F self filename) m body n (s1, s.2) ls r s2 ∧
      (multiphaseExpandOut P C F self filename uuid body (s, out)).2.2 = out ++ opening F self filename :: ls ∧
      (∀ e, r = .error e → (multiphaseExpandOut P C F self filename uuid body (s, out)).1 = .error e) ∧
      (∀ x, r = .ok (some x) → (multiphaseExpandOut P C F self filename uuid body (s, out)).1 = .ok x) ∧
      (r = .ok none → (multiphaseExpandOut P C F self filename uuid body (s, out)).1 = .error .nameError) := by
  have hd : isdebug body = .ok true := by
    rcases isdebug_eq hi with ⟨h, _⟩ | ⟨_, h'⟩
    · exact h
    · exact absurd h h'
  have hne : body ≠ [] := by rintro rfl; simp at h
  obtain ⟨o, h1, h2, _⟩ := detect_spec hp none
  obtain ⟨n, rfl, g1, _, g3⟩ := h2 (.inl hne)
  have hh : phaseLine F self filename = heading F self filename := funext (phaseLine_eq F self filename)
  cases hl : loopOut C F true (heading F self filename) m n body ((s1, s.2), out ++ [opening F self filename]) with
  | mk r s2 =>
  have hst := loopOut_reported (orig := body) n (fun e => by
      subst e
      have : ∀ b : List Val, UpTo 0 b → AtPhase 0 b b := by
        intro b
        induction b with
        | nil => exact fun _ => .nil
        | cons t ts ih =>
          intro hu
          refine .plain (fun n b hb => ?_) rfl (ih (fun x hx => hu x (by simp [hx])))
          have := hu t (by simp) n b hb
          have := hb.2.2.1
          omega
      exact this body g1)
    (fun _ => ⟨hp, g1, fun j _ code hc => hc⟩) hl
  obtain ⟨ls, h5, h6⟩ := hst
  have hr : multiphaseExpandOut P C F self filename uuid body (s, out) =
      match (generalizing := false) r, s2 with
      | .error e, s2 => (.error e, s2)
      | .ok expansion, s2 =>
        match (generalizing := false) expansion with
        | some e => (.ok e, ((restore P self (s.1.modules.get self) s2.1.1, s2.1.2), s2.2))
        | none => (.error .nameError, ((restore P self (s.1.modules.get self) s2.1.1, s2.1.2), s2.2)) := by
    unfold multiphaseExpandOut
    rw [h1]
    dsimp only
    rw [hd]
    simp only [say, if_true, startLine_eq, hh]
    rw [hc]
    dsimp only
    rw [hl]
    cases r with
    | error e => rfl
    | ok x => cases x <;> rfl
  refine ⟨n, ls, r, s2.1, ⟨g1, g3⟩, h6, ?_, ?_, ?_, ?_⟩
  · rw [hr]
    have : s2.2 = out ++ opening F self filename :: ls := by rw [h5]; simp
    cases r with
    | error e => exact this
    | ok x => cases x <;> exact this
  · rintro e rfl; rw [hr]
  · rintro x rfl; rw [hr]
  · rintro rfl; rw [hr]

/-- C68: if compilation succeeds, the report has all phases, each once, from the highest down to 0. -/
theorem C68_all_phases (P : Host) (C : Compiler τ) (F : Format) (self : Str) (filename : Arg) (uuid : Str)
    (body : List Val) (s : Sys × τ) (out : List Str) (m : Nat) (s1 : Sys) (hp : Parsed body) (hi : ImportsParsed body)
    (h : ∃ t ∈ body, IsStepImport t) (hc : createModule P (.str self) filename false uuid s.1 = (.ok m, s1)) (x : List Val)
    (hx : (multiphaseExpandOut P C F self filename uuid body (s, out)).1 = .ok x) :
    ∃ n ls, Highest body n ∧ AllPhases F (heading F self filename) body n ls ∧
      (multiphaseExpandOut P C F self filename uuid body (s, out)).2.2 = out ++ opening F self filename :: ls := by
  obtain ⟨n, ls, r, s2, h1, h2, h3, h4, _, _⟩ := C68_report P C F self filename uuid body s out m s1 hp hi h hc
  refine ⟨n, ls, h1, h2.all ?_, h3⟩
  cases r with
  | error e => rw [h4 e rfl] at hx; cases hx
  | ok y => exact ⟨y, rfl⟩

/-- C68: `phase` and `step_phases` are errors where they are left for the macro expander: when an expansion succeeds, no
macro that always raises an exception, as these two do, has been applied. -/
theorem C68_not_applied {υ : Type} (E : Expander.Env υ) (mode : Expander.Mode) (t r : Val) (s s' : Expander.St υ) (f : Nat)
    (hf : E.macros f = phaseMacro ∨ E.macros f = stepPhasesMacro ∨ Refuses E f)
    (h : Expander.Runs E mode t s (.ok r) s') :
    ∀ e ∈ Expander.fresh s s', e.depth = s.depth → e.fn ≠ f := by
  have hf : Refuses E f := by
    rcases hf with hf | hf | hf
    · intro a
      rw [hf]
      unfold phaseMacro
      dsimp only
      split <;> exact ⟨_, rfl⟩
    · intro a
      rw [hf]
      exact ⟨_, rfl⟩
    · exact hf
  obtain ⟨n, h⟩ := h
  rintro e he hd rfl
  exact (Expander.visitMode_pq unrefused_rel (visit_unrefused n) mode t s _ _ h rfl).2 e he hd hf

/-- C68: a module with a `with phase[n]:` (or `phase` in any other form, or a `step_phases`) that is left for the macro
expander, outside of other macro invocations, does not compile: the expansion raises an exception, or does not end. -/
theorem C68_misplaced {υ : Type} (E : Expander.Env υ) (mode : Expander.Mode) (t u c : Val) (s s' : Expander.St υ)
    (k : String) (f : Nat) (a : Expander.MArgs) (r : Except Expander.Exc Val)
    (hf : E.macros f = phaseMacro ∨ E.macros f = stepPhasesMacro) (hE : E.Keeps Expander.bindings)
    (ht : t.isTree = true) (hg : Expander.Grammatical t) (ho : Expander.Outermost E s.world t u)
    (hi : Expander.Invokes E s.world u k f a c) (h : Expander.Runs E mode t s r s') : ∃ e, r = .error e := by
  cases r with
  | error e => exact ⟨e, rfl⟩
  | ok v =>
    obtain ⟨e, he, hd, _, hfn, _⟩ := C17_outermost E mode t v s s' hE ht hg h u c k f a ho hi
    exact absurd hfn (C68_not_applied E mode t v s s' f (hf.imp id .inl) h e he hd)

/-! ### Concrete cases -/

namespace MultiphaseDebugCase

def alias (n : String) : Val := mk .alias [(.name, .str n), (.asname, .none)]

/-- `from mcpyrate.debug import macros, step_phases` -/
def stepImport : Val :=
  mk .ImportFrom [(.module_, .str "mcpyrate.debug"), (.names, .list [alias "macros", alias "step_phases"]), (.level, .int 0)]

def fmt : Format := ⟨fun b => (toString b.length).toList, fun _ => []⟩

/-- The module of C39's example, with debug mode on. -/
def compileOld (bad : Option String) (body : List Val) :=
  multiphaseExpandOut host0 (recorder bad) fmt "old".toList (.str "f.py".toList) "u".toList body ((sys0, []), [])

end MultiphaseDebugCase
open MultiphaseDebugCase

example : IsStepImport stepImport := ⟨rfl, rfl, rfl, _, _, _, rfl, List.mem_cons_self, rfl⟩

example : (compileOld none (stepImport :: module0)).2.2.map String.ofList =
    ["**Multi-phase compiling module 'old' (f.py)", "**AST for PHASE 2 of module 'old' (f.py)", "3",
      "**AST for PHASE 1 of module 'old' (f.py)", "4", "**AST for PHASE 0 of module 'old' (f.py)", "7"] := by decide +kernel

/-- Phase 1 fails. -/
example : (compileOld (some "b") (stepImport :: module0)).1 = .error .valueError ∧
    (compileOld (some "b") (stepImport :: module0)).2.2.map String.ofList =
    ["**Multi-phase compiling module 'old' (f.py)", "**AST for PHASE 2 of module 'old' (f.py)", "3",
      "**AST for PHASE 1 of module 'old' (f.py)", "4"] := by constructor <;> decide +kernel

example : (compileOld none module0).2.2 = [] := by decide +kernel

/-- The example is as the parser makes it. -/
example : ImportsParsed (stepImport :: module0) ∧ Parsed (stepImport :: module0) := by
  refine ⟨⟨?_, ?_⟩, ?_⟩
  · intro t ht
    simp only [module0, List.mem_cons, List.not_mem_nil, or_false] at ht
    rcases ht with rfl | rfl | rfl | rfl | rfl | rfl
    · exact ⟨fun _ => ⟨_, _, _, rfl, rfl⟩, fun _ _ => rfl⟩
    · exact ⟨fun _ => ⟨_, _, _, rfl, rfl⟩, fun _ _ => rfl⟩
    all_goals exact ⟨fun h => (by cases h), fun h => (by cases h)⟩
  · intro t ht as ha hk
    simp only [module0, List.mem_cons, List.not_mem_nil, or_false] at ht
    rcases ht with rfl | rfl | rfl | rfl | rfl | rfl
    · cases ha
      intro a h
      simp only [List.mem_cons, List.not_mem_nil, or_false] at h
      rcases h with rfl | rfl <;> rfl
    · cases ha
      intro a h
      simp only [List.mem_cons, List.not_mem_nil, or_false] at h
      rcases h with rfl <;> rfl
    all_goals cases hk
  · have h : ∀ n b, 1 ≤ n → Parsed [withPhase (constant (.int (n : Nat))) b] := fun n b hn =>
      IsPhase.parsed (n := n) (b := b)
        ⟨rfl, rfl, hn, _, _, _, _, rfl, rfl, rfl, rfl, rfl, rfl, rfl, rfl, rfl, .inl rfl⟩
    intro t ht
    simp only [module0, List.mem_cons, List.not_mem_nil, or_false] at ht
    rcases ht with rfl | rfl | rfl | rfl | rfl | rfl
    · intro h; cases h
    · intro h; cases h
    · intro h; cases h
    · exact h 1 [line "b"] (by omega) _ (by simp)
    · exact h 2 [line "c"] (by omega) _ (by simp)
    · intro h; cases h

/-- `if x: with phase[1]: pass`, with a macro `phase` and a macro `m`. -/
def phaseEnv : Expander.Env Unit :=
  { Expander.Ex.env with macros := fun | 0 => phaseMacro | _ => Expander.Ex.identity }
def phaseWorld : Expander.World Unit := { locals := [("phase", 0), ("m", 1)], globals := [], user := () }
def innerPhase : Val := Expander.Ex.withStmt [Expander.Ex.sub (name "phase") (mk .Constant [(.value, .int 1)])] [Expander.Ex.pass]
def misplaced : Val := mk .If [(.test, name "x"), (.body, .list [innerPhase]), (.orelse, .list [])]

example : phaseEnv.Keeps Expander.bindings ∧ Expander.Grammatical misplaced ∧
    Expander.Outermost phaseEnv phaseWorld misplaced innerPhase ∧
    (∃ a c, Expander.Invokes phaseEnv phaseWorld innerPhase "phase" 0 a c) ∧
    ((Expander.visitAs phaseEnv 20 .recursively misplaced (Expander.init phaseWorld)).map fun p => p.1.toOption) = some none := by
  refine ⟨⟨?_, fun _ _ _ _ _ => rfl⟩, Expander.grammatical_of (by decide +kernel), .step rfl ?_ (by decide +kernel) (.refl _ rfl),
    ⟨_, _, .block (before := []) (after := []) rfl rfl (by simp) rfl (.bracket rfl rfl rfl rfl rfl rfl) ⟨by decide, rfl, .inr rfl⟩ rfl⟩,
    by decide +kernel⟩
  · rintro (_ | i) a x
    · show Expander.Prog.Ends _ _ _ (if a.synt ≠ .block then _ else _)
      split <;> trivial
    · rfl
  · intro h
    cases h with
    | expr hk => cases hk
    | block hk => cases hk
    | decorator hk => rcases hk with hk | hk <;> cases hk
    | name hk => cases hk

end Mcpyrate
