import Verif.Lemmas.Multiphase
import Verif.Props.Modules
/-
C39 Multi-phase compilation stages code as documented.  The full statement fails for a phase number
written as `with phase[n,]` (`C39_tuple_violated`); `Parsed` excludes it.
C40 Multi-phase compilation restores `sys.modules`.  The full statement fails: an exception at any phase
leaves the temporary module in place (`C40_exception_violated`), also the TypeError for an empty
module (`C40_empty_violated`), and an entry that is None (or falsy) is deleted (`C40_none_violated`).
-/
namespace Mcpyrate
open Py Modules Multiphase

variable {τ : Type}

/-- C39: at every phase there is exactly one code. -/
theorem C39_code_unique (k : Nat) (body : List Val) : ∃ code, AtPhase k body code ∧ ∀ c, AtPhase k body c → c = code := by
  have hex : ∃ code, AtPhase k body code := by
    induction body with
    | nil => exact ⟨[], .nil⟩
    | cons t ts ih =>
      obtain ⟨out, ih⟩ := ih
      by_cases hp : ∃ n b, IsPhase t n b
      · obtain ⟨n, b, hb⟩ := hp
        by_cases hk : k ≤ n
        · exact ⟨_, .block hb hk ih⟩
        · exact ⟨_, .lower hb (by omega) ih⟩
      · have hp : ∀ n b, ¬ IsPhase t n b := fun n b hb => hp ⟨n, b, hb⟩
        by_cases hk : k = 0
        · exact ⟨_, .plain hp hk ih⟩
        · by_cases hf : FutureImports.IsFuture t
          · exact ⟨_, .future hf (by omega) ih⟩
          · exact ⟨_, .other hp hf (by omega) ih⟩
  obtain ⟨code, h⟩ := hex
  exact ⟨code, h, fun c hc => hc.unique h⟩

/-- C39: what is there at a phase stays, in the same order, in the phases below. -/
theorem C39_nothing_lost (j k : Nat) (hjk : j ≤ k) (body c c' : List Val) (h : AtPhase k body c)
    (h' : AtPhase j body c') : c.Sublist c' := by
  induction h generalizing c' with
  | nil => cases h'; exact .slnil
  | block hp hk _ ih =>
    cases h' with
    | block hp' _ h' => rw [(hp.unique hp').2]; exact (ih _ h').append_left _
    | lower hp' hk' h' => have := (hp.unique hp').1; omega
    | plain hn => exact absurd hp (hn _ _)
    | future hf => exact absurd hf hp.not_future
    | other hn => exact absurd hp (hn _ _)
  | lower hp hk _ ih =>
    cases h' with
    | block hp' _ h' => exact (ih _ h').trans (List.sublist_append_right _ _)
    | lower hp' hk' h' => exact ih _ h'
    | plain hn => exact absurd hp (hn _ _)
    | future hf => exact absurd hf hp.not_future
    | other hn => exact absurd hp (hn _ _)
  | plain hn h0 _ ih =>
    cases h' with
    | block hp' _ h' => exact absurd hp' (hn _ _)
    | lower hp' hk' h' => exact absurd hp' (hn _ _)
    | plain _ _ h' => exact (ih _ h').cons_cons _
    | future _ _ h' => exact (ih _ h').cons_cons _
    | other _ _ h1 => omega
  | future hf h0 _ ih =>
    cases h' with
    | block hp' _ h' => exact absurd hf hp'.not_future
    | lower hp' hk' h' => exact absurd hf hp'.not_future
    | plain _ _ h' => exact (ih _ h').cons_cons _
    | future _ _ h' => exact (ih _ h').cons_cons _
    | other _ h1 => exact absurd hf h1
  | other hn hf h0 _ ih =>
    cases h' with
    | block hp' _ h' => exact absurd hp' (hn _ _)
    | lower hp' hk' h' => exact absurd hp' (hn _ _)
    | plain _ _ h' => exact .cons _ (ih _ h')
    | future h1 => exact absurd h1 hf
    | other _ _ _ h' => exact ih _ h'

/-- C39, for modules as the parser makes them: once the temporary module is registered, the phases from
the highest to 1 are run in it and phase 0 is expanded, each with exactly its code.  The result is that
of phase 0. -/
theorem C39_staged_partial (P : Host) (C : Compiler τ) (self : Str) (filename : Arg) (uuid : Str)
    (body : List Val) (s : Sys × τ) (m : Nat) (s1 : Sys) (hp : Parsed body) (hne : body ≠ [])
    (hc : createModule P (.str self) filename false uuid s.1 = (.ok m, s1)) :
    ∃ n r s2, Highest body n ∧ Staged C m body n (s1, s.2) r s2 ∧
      (∀ e, r = .error e → multiphaseExpand P C self filename uuid body s = (.error e, s2)) ∧
      (∀ x, r = .ok (some x) → (multiphaseExpand P C self filename uuid body s).1 = .ok x) ∧
      (r = .ok none → (multiphaseExpand P C self filename uuid body s).1 = .error .nameError) := by
  obtain ⟨o, h1, h2, _⟩ := detect_spec hp none
  obtain ⟨n, rfl, g1, _, g3⟩ := h2 (.inl hne)
  cases hl : loop C m n body (s1, s.2) with
  | mk r s2 =>
  have hst := loop_staged (orig := body) n (fun e => by
      subst e
      have : ∀ b : List Val, UpTo 0 b → AtPhase 0 b b := by
        intro b
        induction b with
        | nil => exact fun _ => .nil
        | cons t ts ih =>
          intro hu
          refine .plain (fun n b hb => ?_) rfl (ih (fun x hx => hu x (by simp [hx])))
          have := hu t (by simp) n b hb
          have := hb.2.2.1
          omega
      exact this body g1) (fun _ => ⟨hp, g1, fun _ _ _ h => h⟩) hl
  refine ⟨n, r, s2, ⟨g1, by simpa using g3⟩, hst, ?_⟩
  refine ⟨?_, ?_, ?_⟩ <;> intros <;> subst_vars <;> unfold multiphaseExpand <;> rw [h1] <;>
    dsimp only <;> rw [hc] <;> dsimp only <;> rw [hl]

/-- C39: a module without phase blocks is just expanded. -/
theorem C39_staged_zero (body code : List Val) (h : ∀ t ∈ body, ∀ n b, ¬ IsPhase t n b) (hc : AtPhase 0 body code) :
    code = body := by
  induction hc with
  | nil => rfl
  | plain _ _ _ ih => rw [ih (fun x hx => h x (by simp [hx]))]
  | block hp => exact absurd hp (h _ (by simp) _ _)
  | lower hp => exact absurd hp (h _ (by simp) _ _)
  | future _ h0 => omega
  | other _ _ h0 => omega

/-- C40, for a normal return: the entry is what it was, if there was none or a true value (as a module is). -/
theorem C40_restored_partial (P : Host) (C : Compiler τ) (self : Str) (filename : Arg) (uuid : Str)
    (body : List Val) (s s' : Sys × τ) (x : List Val)
    (hrun : ∀ b m x, x.1.modules.WF → (C.run b m x).2.1.modules.WF)
    (hexp : ∀ b x, x.1.modules.WF → (C.expand b x).2.1.modules.WF) (hs : s.1.WF) (hne : self ≠ [])
    (htrue : ∀ x, s.1.modules.get self = some x → P.bool x = true)
    (h : multiphaseExpand P C self filename uuid body s = (.ok x, s')) :
    s'.1.modules.get self = s.1.modules.get self := by
  have hloop : ∀ k m b (a : Sys × τ), a.1.modules.WF → (loop C m k b a).2.1.modules.WF := by
    intro k m
    induction k with
    | zero =>
      intro b a ha
      rw [loop]
      split
      · exact ha
      · split
        · exact ha
        · rename_i c _
          have := hexp c a ha
          split <;> rename_i he <;> rw [he] at this <;> exact this
    | succ k ih =>
      intro b a ha
      rw [loop]
      split
      · exact ha
      · split
        · exact ih _ _ ha
        · split
          · exact ha
          · rename_i c _
            have := hrun c m a ha
            split <;> rename_i he <;> rw [he] at this
            · exact this
            · exact ih _ _ this
  have hres : ∀ y : Sys, y.modules.WF → (restore P self (s.1.modules.get self) y).modules.get self = s.1.modules.get self := by
    intro y hy
    cases ho : s.1.modules.get self with
    | none => simp [restore, Dict.get_del, hy]
    | some z => simp [restore, htrue z ho, Dict.get_set]
  unfold multiphaseExpand at h
  split at h
  · cases h
  · dsimp only at h
    split at h
    · cases h
    · rename_i m s1 hc
      have hw1 : s1.modules.WF := by
        rw [(create_ok hs hne hc).2.2.1]; exact Dict.WF_set _ _ _ hs.1
      split at h
      · cases h
      · rename_i k _
        have := hloop k m body (s1, s.2) hw1
        split at h
        · cases h
        · rename_i e s2 hl
          rw [hl] at this
          split at h
          · cases h
            exact hres _ this
          · cases h

/-- `with phase[sl]: b` -/
def withPhase (sl : Val) (b : List Val) : Val :=
  mk .With [(.items, .list [mk .withitem [(.context_expr, mk .Subscript
    [(.value, name "phase"), (.slice, sl), (.ctx, mk .Load [])]), (.optional_vars, .none)]]), (.body, .list b)]

/-- The expression statement `x`. -/
def line (x : String) : Val := exprStmt (name x)

/-- `from __future__ import annotations` -/
def fut : Val := mk .ImportFrom [(.module_, .str "__future__"), (.names, .list
  [mk .alias [(.name, .str "annotations"), (.asname, .none)]]), (.level, .int 0)]

/-- A compiler that records what it is given: phase code in the order of its runs.  `bad` is a
name that raises. -/
def recorder (bad : Option String) : Compiler (List (List Val)) where
  run b _ s := if b.any (fun t => bad.any (fun x => t == line x)) then (.error .valueError, s)
    else (.ok (), (s.1, s.2 ++ [b]))
  expand b s := if b.any (fun t => bad.any (fun x => t == line x)) then (.error .valueError, s) else (.ok b, s)

/-- ```
from __future__ import annotations
a
with phase[1]: b
with phase[2]: c
d
``` -/
def module0 : List Val :=
  [fut, line "a", withPhase (constant (.int 1)) [line "b"], withPhase (constant (.int 2)) [line "c"], line "d"]

def expandOld (bad : Option String) (body : List Val) : Except Err (List Val) × (Sys × List (List Val)) :=
  multiphaseExpand host0 (recorder bad) "old".toList .none "u".toList body (sys0, [])

example : IsPhase (withPhase (constant (.int 2)) [line "c"]) 2 [line "c"] :=
  ⟨rfl, rfl, by omega, _, _, _, _, rfl, rfl, rfl, rfl, rfl, rfl, rfl, rfl, rfl, .inl rfl⟩

example : (expandOld none module0).1 =
    .ok [fut, assignment 0, line "a", line "b", line "c", line "d"] := by decide +kernel
example : (expandOld none module0).2.2 = [[fut, assignment 2, line "c"],
    [fut, assignment 1, line "b", line "c"]] := by decide +kernel
example : (expandOld none module0).2.1.modules = sys0.modules := by decide +kernel

/-- The example is as the parser makes it. -/
example : Parsed module0 := by
  have h : ∀ n b, 1 ≤ n → Parsed [withPhase (constant (.int (n : Nat))) b] := fun n b hn =>
    IsPhase.parsed (n := n) (b := b)
      ⟨rfl, rfl, hn, _, _, _, _, rfl, rfl, rfl, rfl, rfl, rfl, rfl, rfl, rfl, .inl rfl⟩
  intro t ht
  simp only [module0, List.mem_cons, List.not_mem_nil, or_false] at ht
  rcases ht with rfl | rfl | rfl | rfl | rfl
  · intro h; cases h
  · intro h; cases h
  · exact h 1 [line "b"] (by omega) _ (by simp)
  · exact h 2 [line "c"] (by omega) _ (by simp)
  · intro h; cases h

/-- C39 fails for `with phase[2,]: c`, which is taken for phase 2: the block is run at phase 2, is
missing at phase 1, and is still there as a `with phase` statement at phase 0. -/
theorem C39_tuple_violated :
    let block := withPhase (mk .Tuple [(.elts, .list [constant (.int 2)]), (.ctx, mk .Load [])]) [line "c"]
    let body := [block, withPhase (constant (.int 1)) [line "b"]]
    iswithphase block = .ok (some 2) ∧
    (expandOld none body).2.2 = [[assignment 2, line "c"], [assignment 1, line "b"]] ∧
    (expandOld none body).1 = .ok [assignment 0, block, line "b"] := by
  refine ⟨?_, ?_, ?_⟩ <;> decide +kernel

/-- C40 fails for exceptions: one raised at any phase leaves the temporary module (object 2) in place of
the original (object 1). -/
theorem C40_exception_violated :
    sys0.modules.get "old".toList = some (.obj 1) ∧
    ∀ bad ∈ ["a", "b", "c"], (expandOld (some bad) module0).1 = .error .valueError ∧
      (expandOld (some bad) module0).2.1.modules.get "old".toList = some (.obj 2) := by decide +kernel

/-- C40 fails for an empty module: TypeError, and the temporary module stays. -/
theorem C40_empty_violated : (expandOld none []).1 = .error .typeError ∧
    (expandOld none []).2.1.modules.get "old".toList = some (.obj 2) := by constructor <;> decide +kernel

/-- C40 fails if the entry was None (which makes imports of the module fail): it is deleted. -/
theorem C40_none_violated :
    let s : Sys := { sys0 with modules := [("x".toList, .none)] }
    let r := multiphaseExpand host0 (recorder none) "x".toList .none "u".toList module0 (s, [])
    s.modules.get "x".toList = some .none ∧ r.1.toOption.isSome ∧ r.2.1.modules.get "x".toList = none := by
  refine ⟨?_, ?_, ?_⟩ <;> decide +kernel

end Mcpyrate
