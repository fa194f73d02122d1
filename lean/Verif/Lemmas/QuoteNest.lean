import Verif.Lemmas.QuoteOps
import Verif.Lemmas.DelLike
import Verif.Lemmas.ExpanderKept
import Verif.Lemmas.DictFilter
import Verif.Lemmas.QuoteReady
/-
Nested quotes and unquotes.
-/
namespace Mcpyrate.QuoteOps
open Py Expander Markers

variable {σ : Type}

/-! ### bindings and levels are kept -/

theorem both_local : Local (both (σ := σ)) := by
  intro w w' b h
  simp only [both, Prod.mk.injEq] at h ⊢
  exact ⟨bindings_local w w' b h.1, levels_local w w' b h.2⟩

section
variable {B : Dict String Nat × Dict String Nat} {x : List Nat}

theorem after_both {fin : Val → M Exc (W σ) Val} (hf : ∀ t, Mild (fin t)) (r : Except Exc Val) (v : Nat) :
    (after fin r).Ends both (B, v :: x) (B, x) := by
  intro _ w hw
  show (conclude (settle fin r w)).Ends both (B, v :: x) (B, x)
  cases hr : settle fin r w with
  | none => trivial
  | some p =>
    obtain ⟨o, w'⟩ := p
    have hs := settle_mild hf r w o w' hr
    simp only [both, Prod.mk.injEq] at hw
    have : both (pop w') = (B, x) := by
      have h2 := hs.2
      rw [hw.2] at h2
      have h1 := hs.1
      rw [hw.1] at h1
      simp only [both, Prod.mk.injEq]
      refine ⟨h1, ?_⟩
      simp only [levels, pop] at h2 ⊢
      rw [h2]; rfl
    cases o <;> exact this

theorem both_push (v : Nat) (w : W σ) : both (push v w) = ((both w).1, v :: (both w).2) := rfl

theorem quote_both (L : Lib σ) (filename : String) (a : MArgs) :
    (quote L filename a).Ends both (B, x) (B, x) := by
  unfold quote
  split
  · intro _ w hw
    intro r
    rw [both_push, hw]
    exact after_both (finishQuote_mild L filename a) r _
  · rfl

theorem unquote_both (a : MArgs) (emit : Val → Except Exc Val) :
    (unquote (σ := σ) a emit).Ends both (B, x) (B, x) := by
  intro _ w hw
  dsimp only
  split
  · rfl
  · intro r
    rw [both_push, hw]
    exact after_both (finishUnquote_mild a emit) r _

theorem exprUnquote_both (a : MArgs) (emit : Val → Except Exc Val) :
    (exprUnquote (σ := σ) a emit).Ends both (B, x) (B, x) := by
  unfold exprUnquote
  split
  · exact unquote_both a emit
  · rfl

theorem astUnquote_both (a : MArgs) : (astUnquote (σ := σ) a).Ends both (B, x) (B, x) := by
  unfold astUnquote
  split
  · intro _ w hw
    dsimp only
    split
    · rfl
    · split
      · rfl
      · exact unquote_both a _
  · rfl

theorem capture_both (L : Lib σ) (isName : Nat → Bool) (a : MArgs) :
    (capture L isName a).Ends both (B, x) (B, x) := by
  unfold capture
  split
  · intro _ w hw
    dsimp only
    split
    · rfl
    · show Prog.Ends both (both (push _ w)) (B, x) _
      rw [both_push, hw]
      split
      · exact after_both (finishUnquote_mild a _) _ _
      · split
        · exact after_both (finishUnquote_mild a _) _ _
        · intro r
          exact after_both (finishUnquote_mild a _) r _
  · rfl

end

theorem opFn_both (L : Lib σ) (filename : String) (isName : Nat → Bool) (op : Op) (a : MArgs) (x) :
    (opFn L filename isName op a).Ends both x x := by
  obtain ⟨B, x⟩ := x
  cases op with
  | q => exact quote_both L filename a
  | u => exact exprUnquote_both a _
  | n => exact exprUnquote_both a _
  | a => exact astUnquote_both a
  | s => exact exprUnquote_both a _
  | t => exact exprUnquote_both a _
  | h => exact capture_both L isName a

theorem keeps_both {L : Lib σ} {E : Env (User σ)} (hL : HasOps L E)
    (hm : ∀ i, (∀ op, i ≠ L.id op) → ∀ a x, ((E.macros i).fn a).Ends both x x)
    (hh : ∀ i t r n x, (E.hooks i t r n).Ends both x x) : E.Keeps both := by
  refine ⟨fun i a x => ?_, hh⟩
  by_cases h : ∃ op, i = L.id op
  · obtain ⟨op, rfl⟩ := h
    rw [hL op]
    exact opFn_both L _ _ op a x
  · exact hm i (fun op ho => h ⟨op, ho⟩) a x

/-! ### the second expander has the same bindings -/

theorem quoteBindings_WF (L : Lib σ) {w : W σ} (hg : Dict.WF w.globals) : Dict.WF (quoteBindings L w) :=
  Dict.WF_filter _ _ (Dict.WF_update _ _ hg)

theorem mem_ops (L : Lib σ) (op : Op) : L.id op ∈ [L.id .q, L.id .u, L.id .n, L.id .a, L.id .s, L.id .t, L.id .h] := by
  cases op <;> simp

/-- In the second expander, the names of the operators and the global names are bound as before. -/
theorem isbound_quoteBindings {L : Lib σ} {w : W σ} (hl : Dict.WF w.locals) (hg : Dict.WF w.globals)
    (ho : LocalOps L w) (k : String) : isbound { w with locals := quoteBindings L w } k = isbound w k := by
  unfold isbound quoteBindings ExtractBindings.extractBindings
  rw [Dict.get_filter _ _ (Dict.WF_update _ _ hg), Dict.get_update _ _ hl]
  change ((isbound w k).filter _).or _ = isbound w k
  cases hb : isbound w k with
  | none =>
    simp only [Option.filter, Option.none_or]
    unfold isbound at hb
    simp only [Option.or_eq_none_iff] at hb
    exact hb.2
  | some i =>
    by_cases hop : ∃ op, i = L.id op
    · obtain ⟨op, rfl⟩ := hop
      have := mem_ops L op
      simp only [Option.filter_some, this, decide_true, if_true, Option.some_or]
    · have hg : w.globals.get k = some i := by
        unfold isbound at hb
        cases hl' : w.locals.get k with
        | none => rw [hl'] at hb; exact hb
        | some j =>
          rw [hl'] at hb
          cases hb
          exact absurd (ho k _ hl') hop
      rw [hg]
      cases hf : Option.filter (fun i => decide (i ∈ [L.id .q, L.id .u, L.id .n, L.id .a, L.id .s, L.id .t, L.id .h])) (some i) with
      | none => rfl
      | some j =>
        rw [Option.filter_eq_some_iff] at hf
        rw [hf.1]
        rfl

theorem quoteBindings_ops (L : Lib σ) {w : W σ} (hg : Dict.WF w.globals) : ∀ k i, (quoteBindings L w).get k = some i → ∃ op, i = L.id op := by
  intro k i h
  unfold quoteBindings ExtractBindings.extractBindings at h
  rw [Dict.get_filter _ _ (Dict.WF_update _ _ hg), Option.filter_eq_some_iff] at h
  have hm := h.2
  simp only [decide_eq_true_eq, List.mem_cons, List.not_mem_nil, or_false] at hm
  rcases hm with h | h | h | h | h | h | h
  · exact ⟨.q, h⟩
  · exact ⟨.u, h⟩
  · exact ⟨.n, h⟩
  · exact ⟨.a, h⟩
  · exact ⟨.s, h⟩
  · exact ⟨.t, h⟩
  · exact ⟨.h, h⟩

theorem names_isbound {E : Env (User σ)} {w w' : W σ} (h : ∀ k, isbound w' k = isbound w k) {t : Val} :
    Names E w' t ↔ Names E w t := by
  unfold Names Accepts
  simp only [h]

theorem invocation_isbound {E : Env (User σ)} {w w' : W σ} (h : ∀ k, isbound w' k = isbound w k) {t : Val} :
    Invocation E w' t ↔ Invocation E w t := by
  constructor
  · intro hi
    cases hi with
    | expr h1 h2 h3 => exact .expr h1 h2 ((names_isbound h).mp h3)
    | block h1 h2 h3 h4 h5 => exact .block h1 h2 h3 h4 ((names_isbound h).mp h5)
    | decorator h1 h2 h3 h4 => exact .decorator h1 h2 h3 ((names_isbound h).mp h4)
    | name h1 h2 h3 h4 h5 => exact .name h1 h2 h3 (by rw [← h]; exact h4) h5
  · intro hi
    cases hi with
    | expr h1 h2 h3 => exact .expr h1 h2 ((names_isbound h).mpr h3)
    | block h1 h2 h3 h4 h5 => exact .block h1 h2 h3 h4 ((names_isbound h).mpr h5)
    | decorator h1 h2 h3 h4 => exact .decorator h1 h2 h3 ((names_isbound h).mpr h4)
    | name h1 h2 h3 h4 h5 => exact .name h1 h2 h3 (by rw [h]; exact h4) h5

theorem accepts_isbound {E : Env (User σ)} {w w' : W σ} (h : ∀ k, isbound w' k = isbound w k) {k : String} {as : List Val} {i : Nat} :
    Accepts E w' k as i ↔ Accepts E w k as i := by
  unfold Accepts
  simp only [h]

theorem invokes_isbound {E : Env (User σ)} {w w' : W σ} (h : ∀ k, isbound w' k = isbound w k) {t c : Val} {k : String} {i : Nat}
    {a : MArgs} : Invokes E w' t k i a c ↔ Invokes E w t k i a c := by
  constructor
  · intro hi
    cases hi with
    | expr h1 h2 h3 h4 h5 => exact .expr h1 h2 h3 ((accepts_isbound h).mp h4) h5
    | block h1 h2 h3 h4 h5 h6 h7 =>
      exact .block h1 h2 (fun i hi c hc hn => h3 i hi c hc ((names_isbound h).mpr hn)) h4 h5 ((accepts_isbound h).mp h6) h7
    | decorator h1 h2 h3 h4 h5 =>
      exact .decorator h1 h2 (fun i hi hn => h3 i hi ((names_isbound h).mpr hn)) h4 ((accepts_isbound h).mp h5)
    | name h1 h2 h3 h4 h5 => exact .name h1 h2 h3 (by rw [← h]; exact h4) h5
  · intro hi
    cases hi with
    | expr h1 h2 h3 h4 h5 => exact .expr h1 h2 h3 ((accepts_isbound h).mpr h4) h5
    | block h1 h2 h3 h4 h5 h6 h7 =>
      exact .block h1 h2 (fun i hi c hc hn => h3 i hi c hc ((names_isbound h).mp hn)) h4 h5 ((accepts_isbound h).mpr h6) h7
    | decorator h1 h2 h3 h4 h5 =>
      exact .decorator h1 h2 (fun i hi hn => h3 i hi ((names_isbound h).mp hn)) h4 ((accepts_isbound h).mpr h5)
    | name h1 h2 h3 h4 h5 => exact .name h1 h2 h3 (by rw [h]; exact h4) h5

/-! ### one use of an operator -/

theorem run_after {vis : Val → X (User σ) Val} {fin : Val → M Exc (W σ) Val} {r : Except Exc Val}
    {s s' : Expander.St (User σ)} {ret : Ret} (h : run vis (after fin r) s = some (.ok ret, s')) :
    ∃ x v w, r = .ok x ∧ fin x s.world = some (.ok v, w) ∧ ret = .val v := by
  have h1 : run vis (conclude (settle fin r s.world)) s = some (.ok ret, s') := h
  cases hs : settle fin r s.world with
  | none => rw [hs] at h1; cases h1
  | some p =>
    obtain ⟨o, w⟩ := p
    rw [hs] at h1
    cases o with
    | error e => cases h1
    | ok v =>
      cases r with
      | error e => cases hs
      | ok x =>
        have h2 : some (.ok (Ret.val v), { s with world := pop w }) = some (Except.ok ret, s') := h1
        cases h2
        exact ⟨x, v, w, rfl, hs, rfl⟩

theorem run_visitRec {vis : Val → X (User σ) Val} {t : Val} {k : Except Exc Val → Prog (User σ)}
    {s s' : Expander.St (User σ)} {o : Except Exc Ret} (h : run vis (.visit .recursively t k) s = some (o, s')) :
    ∃ r s1, vis t { s with recursive := true } = some (r, s1) ∧
      run vis (k r) { s1 with recursive := s.recursive } = some (o, s') := by
  change M.bind (M.attempt (M.bracket _ _ (vis t))) _ s = _ at h
  simp only [M.bind, M.attempt, M.bracket] at h
  cases hv : vis t { s with recursive := true } with
  | none => rw [hv] at h; cases h
  | some p =>
    obtain ⟨r, s1⟩ := p
    rw [hv] at h
    exact ⟨r, s1, rfl, h⟩

theorem run_visitNew {vis : Val → X (User σ) Val} {b : Dict String Nat} {t : Val} {k : Except Exc Val → Prog (User σ)}
    {s s' : Expander.St (User σ)} {o : Except Exc Ret} (h : run vis (.visitNew b t k) s = some (o, s')) :
    ∃ r s1, vis t { s with recursive := true, hook := none, world := { s.world with locals := b } } = some (r, s1) ∧
      run vis (k r) { s1 with recursive := s.recursive, hook := s.hook,
                              world := { s1.world with locals := s.world.locals } } = some (o, s') := by
  change M.bind (M.attempt (M.bracket _ _ (vis t))) _ s = _ at h
  simp only [M.bind, M.attempt, M.bracket] at h
  cases hv : vis t { s with recursive := true, hook := none, world := { s.world with locals := b } } with
  | none => rw [hv] at h; cases h
  | some p =>
    obtain ⟨r, s1⟩ := p
    rw [hv] at h
    exact ⟨r, s1, rfl, h⟩

/-- What an unquote returns, for the result `x'` of the inner visit. -/
def Emits (n : Nat) (a : MArgs) (emit : Val → Except Exc Val) (x' v : Val) : Prop :=
  (0 < n ∧ replaceTree a.invocation x' = .ok v) ∨ (n = 0 ∧ emit x' = .ok v)

theorem finishUnquote_ok {a : MArgs} {emit : Val → Except Exc Val} {x v : Val} {w w' : W σ}
    (h : finishUnquote a emit x w = some (.ok v, w')) : Emits (value w) a emit x v := by
  change (if value w > 0 then M.ofExcept (replaceTree a.invocation x) else M.ofExcept (emit x)) w = _ at h
  by_cases hv : value w > 0
  · rw [if_pos hv] at h
    refine .inl ⟨hv, ?_⟩
    cases hr : replaceTree a.invocation x with
    | error => rw [hr] at h; cases h
    | ok y => rw [hr] at h; cases h; rfl
  · rw [if_neg hv] at h
    refine .inr ⟨by omega, ?_⟩
    cases hr : emit x with
    | error => rw [hr] at h; cases h
    | ok y => rw [hr] at h; cases h; rfl

section
variable {E : Env (User σ)} {m : Nat}

theorem visit_levels (hk : E.Keeps both) {t : Val} {s s' : Expander.St (User σ)} {r : Except Exc Val}
    (h : visit E m t s = some (r, s')) : levels s'.world = levels s.world ∧ bindings s'.world = bindings s.world := by
  have := visit_keeps both_local hk m t s r s' h
  simp only [both, Prod.mk.injEq] at this
  exact ⟨this.2, this.1⟩

theorem value_levels (w : W σ) : value w = (levels w).headD 0 := rfl

/-- The state in which the argument of an unquote is visited. -/
def lower (n : Nat) (s : Expander.St (User σ)) : Expander.St (User σ) :=
  { s with recursive := true, world := push n s.world }

theorem unquote_step (hk : E.Keeps both) {a : MArgs} {emit : Val → Except Exc Val} {s s' : Expander.St (User σ)} {ret : Ret}
    (h : run (visit E m) (unquote a emit) s = some (.ok ret, s')) :
    ∃ n x' v s2, value s.world = n + 1 ∧ visit E m a.tree (lower n s) = some (.ok x', s2) ∧ ret = .val v ∧
      Emits n a emit x' v := by
  have h0 : run (visit E m) (if value s.world < 1 then Prog.raise (.py .syntaxError)
    else .put (push (value s.world - 1) s.world) (.visit .recursively a.tree (after (finishUnquote a emit)))) s = some (.ok ret, s') := h
  by_cases hv : value s.world < 1
  · rw [if_pos hv] at h0; cases h0
  · rw [if_neg hv] at h0
    obtain ⟨n, hn⟩ : ∃ n, value s.world = n + 1 := ⟨value s.world - 1, by omega⟩
    have h1 : run (visit E m) (.visit .recursively a.tree (after (finishUnquote a emit)))
        { s with world := push (value s.world - 1) s.world } = some (.ok ret, s') := h0
    rw [hn, Nat.add_sub_cancel] at h1
    obtain ⟨r, s2, h2, h3⟩ := run_visitRec h1
    obtain ⟨x', v, w', rfl, h4, rfl⟩ := run_after h3
    have hl := (visit_levels hk h2).1
    have he := finishUnquote_ok h4
    have hval : value s2.world = n := by rw [value_levels, hl]; rfl
    refine ⟨n, x', v, s2, hn, h2, rfl, ?_⟩
    have he' : Emits (value s2.world) a emit x' v := he
    rw [hval] at he'; exact he'

theorem capture_step (hk : E.Keeps both) {L : Lib σ} {isName : Nat → Bool} {a : MArgs} {s s' : Expander.St (User σ)}
    {ret : Ret} (hs : a.synt = .expr) (hn : isNameMacro isName s.world a.tree = false)
    (h : run (visit E m) (capture L isName a) s = some (.ok ret, s')) :
    ∃ n x' v s2 name, value s.world = n + 1 ∧ visit E m a.tree (lower n s) = some (.ok x', s2) ∧ ret = .val v ∧
      L.unparse a.tree = .ok name ∧ Emits n a (emitCapture name) x' v := by
  unfold capture at h
  rw [if_pos hs] at h
  have h0 : run (visit E m) (if value s.world < 1 then Prog.raise (.py .syntaxError)
      else .put (push (value s.world - 1) s.world) (match L.unparse a.tree with
        | .error e => after (finishUnquote a (emitCapture "")) (.error (.py e))
        | .ok name =>
          if isNameMacro isName s.world a.tree then after (finishUnquote a (emitCapture name)) (.ok a.tree)
          else .visit .recursively a.tree (after (finishUnquote a (emitCapture name))))) s = some (.ok ret, s') := h
  by_cases hv : value s.world < 1
  · rw [if_pos hv] at h0; cases h0
  · rw [if_neg hv] at h0
    obtain ⟨n, hval⟩ : ∃ n, value s.world = n + 1 := ⟨value s.world - 1, by omega⟩
    cases hu : L.unparse a.tree with
    | error e =>
      rw [hu] at h0
      obtain ⟨_, _, _, hx, _⟩ := run_after (s := { s with world := push (value s.world - 1) s.world }) h0
      cases hx
    | ok name =>
      rw [hu, hn] at h0
      have h1 : run (visit E m) (.visit .recursively a.tree (after (finishUnquote a (emitCapture name))))
        { s with world := push (value s.world - 1) s.world } = some (.ok ret, s') := h0
      rw [hval, Nat.add_sub_cancel] at h1
      obtain ⟨r, s2, h2, h3⟩ := run_visitRec h1
      obtain ⟨x', v, w', rfl, h4, rfl⟩ := run_after h3
      have hl := (visit_levels hk h2).1
      have he := finishUnquote_ok h4
      have hval2 : value s2.world = n := by rw [value_levels, hl]; rfl
      refine ⟨n, x', v, s2, name, hval, h2, rfl, rfl, ?_⟩
      have he' : Emits (value s2.world) a (emitCapture name) x' v := he
      rw [hval2] at he'; exact he'

/-- The argument of an unquote is visited at the level below; if that is zero, a command for the quasiquote compiler
is left, otherwise the invocation stays with the new argument. -/
theorem op_step (hk : E.Keeps both) {L : Lib σ} {filename : String} {isName : Nat → Bool} {op : Op} (hop : op ≠ .q)
    {a : MArgs} {s s' : Expander.St (User σ)} {ret : Ret} (hs : a.synt = .expr)
    (hn : isNameMacro isName s.world a.tree = false)
    (h : run (visit E m) (opFn L filename isName op a) s = some (.ok ret, s')) :
    ∃ n x' v s2, value s.world = n + 1 ∧ visit E m a.tree (lower n s) = some (.ok x', s2) ∧ ret = .val v ∧
      ((0 < n ∧ replaceTree a.invocation x' = .ok v) ∨ (n = 0 ∧ Interpolated L filename op a.tree x' v)) := by
  have hexp : ∀ emit, run (visit E m) (exprUnquote a emit) s = some (.ok ret, s') →
      (∀ x' v, emit x' = .ok v → Interpolated L filename op a.tree x' v) →
      ∃ n x' v s2, value s.world = n + 1 ∧ visit E m a.tree (lower n s) = some (.ok x', s2) ∧ ret = .val v ∧
      ((0 < n ∧ replaceTree a.invocation x' = .ok v) ∨ (n = 0 ∧ Interpolated L filename op a.tree x' v)) := by
    intro emit h hi
    unfold exprUnquote at h
    rw [if_pos hs] at h
    obtain ⟨n, x', v, s2, h1, h2, h3, h4⟩ := unquote_step hk h
    exact ⟨n, x', v, s2, h1, h2, h3, h4.imp id fun h => ⟨h.1, hi _ _ h.2⟩⟩
  cases op with
  | q => exact absurd rfl hop
  | u => exact hexp _ h fun x' v hv => by cases hv; exact .u
  | n => exact hexp _ h fun x' v hv => by cases hv; exact .n
  | s => exact hexp _ h fun x' v hv => by cases hv; exact .s
  | t => exact hexp _ h fun x' v hv => by cases hv; exact .t
  | a =>
    change run (visit E m) (astUnquote a) s = _ at h
    unfold astUnquote at h
    rw [if_pos (.inl hs)] at h
    have h0 : run (visit E m) (if value s.world < 1 then Prog.raise (.py .syntaxError)
      else if a.synt = .block ∧ a.optionalVars ≠ some .none then .raise (.py .syntaxError)
      else unquote a (emitAST a.synt)) s = some (.ok ret, s') := h
    by_cases hv : value s.world < 1
    · rw [if_pos hv] at h0; cases h0
    · rw [if_neg hv, if_neg (by rw [hs]; simp)] at h0
      obtain ⟨n, x', v, s2, h1, h2, h3, h4⟩ := unquote_step hk h0
      refine ⟨n, x', v, s2, h1, h2, h3, h4.imp id fun h => ⟨h.1, ?_⟩⟩
      have h5 := h.2
      rw [hs] at h5
      cases h5
      exact .a
  | h =>
    obtain ⟨n, x', v, s2, name, h1, h2, h3, h4, h5⟩ := capture_step hk hs hn h
    refine ⟨n, x', v, s2, h1, h2, h3, h5.imp id fun h => ⟨h.1, ?_⟩⟩
    have h6 := h.2
    cases h6
    exact .h h4

/-- The state in which the argument of `q` is visited. -/
def raised (L : Lib σ) (s : Expander.St (User σ)) : Expander.St (User σ) :=
  { s with recursive := true, hook := none,
           world := { push (value s.world + 1) s.world with locals := quoteBindings L s.world } }

theorem quote_step (hk : E.Keeps both) {L : Lib σ} {filename : String} {a : MArgs} {s s' : Expander.St (User σ)}
    {ret : Ret} (hs : a.synt = .expr ∨ a.synt = .block) (h : run (visit E m) (quote L filename a) s = some (.ok ret, s')) :
    ∃ x' v s2, visit E m a.tree (raised L s) = some (.ok x', s2) ∧ ret = .val v ∧
      ((0 < value s.world ∧ replaceTree a.invocation x' = .ok v) ∨
        (value s.world = 0 ∧ ∃ w w', bindings w = bindings s.world ∧ compile L filename a x' w = some (.ok v, w'))) := by
  unfold quote at h
  rw [if_pos hs] at h
  have h0 : run (visit E m) (.visitNew (quoteBindings L s.world) a.tree (after (finishQuote L filename a)))
    { s with world := push (value s.world + 1) s.world } = some (.ok ret, s') := h
  obtain ⟨r, s2, h2, h3⟩ := run_visitNew h0
  obtain ⟨x', v, w', rfl, h4, rfl⟩ := run_after h3
  obtain ⟨hl, hb⟩ := visit_levels hk h2
  refine ⟨x', v, s2, h2, rfl, ?_⟩
  have hval : value ({ s2.world with locals := s.world.locals } : W σ) = value s.world + 1 := by
    have : value s2.world = value s.world + 1 := by rw [value_levels, hl]; rfl
    exact this
  change (if value _ > 1 then M.ofExcept (replaceTree a.invocation x') else compile L filename a x') _ = _ at h4
  by_cases hv : 0 < value s.world
  · have h5 := h4
    rw [if_pos (by show value ({ s2.world with locals := s.world.locals } : W σ) > 1; rw [hval]; omega)] at h5
    refine .inl ⟨hv, ?_⟩
    cases hr : replaceTree a.invocation x' with
    | error => rw [hr] at h5; cases h5
    | ok y => rw [hr] at h5; cases h5; rfl
  · have h5 := h4
    rw [if_neg (by show ¬ value ({ s2.world with locals := s.world.locals } : W σ) > 1; rw [hval]; omega)] at h5
    refine .inr ⟨by omega, _, w', ?_, h5⟩
    simp only [bindings, Prod.mk.injEq] at hb ⊢
    exact ⟨rfl, hb.2⟩

end

/-! ### trees without invocations stand for themselves -/

section
variable {L : Lib σ} {E : Env (User σ)} {w : W σ} {n : Nat}

mutual
theorem res_inert (t : Val) (ht : t.isAST = true) (h : NoInvocations E w t) : Res L E w n t t := by
  match t with
  | .const _ => cases ht
  | .list _ => cases ht
  | .node c l fs =>
    by_cases hd : isDone (.node c l fs) = true
    · exact .done hd
    · have hd : isDone (.node c l fs) = false := by simpa using hd
      exact .node (h _ (.refl _ hd)) (resF_inert fs fun x hx => h.child hd hx)
termination_by structural t
theorem resF_inert (fs : List (F × Val)) (h : ∀ x ∈ childNodes (.node (.py .Load) {} fs), NoInvocations E w x) :
    ResF L E w n fs fs := by
  match fs with
  | [] => exact .nil
  | (f, v) :: r =>
    have hr : ResF L E w n r r := resF_inert r fun x hx => h x (by
      simp only [childNodes, List.mem_flatMap] at hx ⊢
      obtain ⟨q, hq, hx⟩ := hx
      exact ⟨q, List.mem_cons_of_mem _ hq, hx⟩)
    match v with
    | .const k => exact .const hr
    | .list xs => exact .field (.list (resL_inert xs fun x hx hxa => h x (by simp [childNodes, hx, hxa]))) hr
    | .node c l gs => exact .field (res_inert (.node c l gs) rfl (h _ (by simp [childNodes]))) hr
termination_by structural fs
theorem resL_inert (xs : List Val) (h : ∀ x ∈ xs, x.isAST = true → NoInvocations E w x) : ResL L E w n xs xs := by
  match xs with
  | [] => exact .nil
  | x :: xs =>
    have hr : ResL L E w n xs xs := resL_inert xs fun y hy => h y (List.mem_cons_of_mem _ hy)
    match x with
    | .const k => exact .other rfl hr
    | .list ys => exact .other rfl hr
    | .node c l gs => exact .item (res_inert (.node c l gs) rfl (h _ (by simp) rfl)) hr
termination_by structural xs
end

theorem isSearchDone_py (k : K) : isSearchDone (.py k) = false := rfl

/-- `y` is `x` after the visit: without the marks of the compiler it is `d`, what `x` stands for. -/
structure Clear (L : Lib σ) (E : Env (User σ)) (w : W σ) (n : Nat) (x y d : Val) : Prop where
  del : del isSearchDone y = .ok d
  isAST : d.isAST = true
  res : Res L E w n x d
  ready : Ready E w n d
  zero : n = 0 → d = y

/-- `y` is `x` after the visit. -/
structure Stands (L : Lib σ) (E : Env (User σ)) (w : W σ) (n : Nat) (x y : Val) : Prop where
  isAST : y.isAST = true
  fine : Fine E w x y
  clear : ∃ d, Clear L E w n x y d

theorem genL_res {xs ys : List Val} (h : GenL (Stands L E w n) xs ys) (hf : ∀ zs, .list zs ∉ xs) :
    ∃ ds, delItems isSearchDone ys = .ok ds ∧ ResL L E w n xs ds ∧ (∀ d ∈ ds, Ready E w n d) ∧ (n = 0 → ds = ys) := by
  induction h with
  | nil => exact ⟨[], by rw [delItems], .nil, by simp, fun _ => rfl⟩
  | other hx _ ih =>
    obtain ⟨ds, h1, h2, h3, h4⟩ := ih fun zs hz => hf zs (List.mem_cons_of_mem _ hz)
    rename_i x _ _ _
    cases x with
    | const =>
      refine ⟨_, by rw [delItems, h1], .other hx h2, fun d hd => ?_, fun h0 => by rw [h4 h0]⟩
      rcases List.mem_cons.mp hd with rfl | hd
      · exact .const
      · exact h3 d hd
    | list => exact absurd List.mem_cons_self (hf _)
    | node => cases hx
  | item hx hr _ ih =>
    obtain ⟨ds, h1, h2, h3, h4⟩ := ih fun zs hz => hf zs (List.mem_cons_of_mem _ hz)
    obtain ⟨hy, -, d, hd, hda, hres, hrd, hz⟩ := hr
    obtain ⟨c, l, gs, rfl⟩ := isAST_eq hy
    refine ⟨d :: ds, ?_, .item hres h2, fun e he => ?_, fun h0 => ?_⟩
    · rw [spliceResult_node rfl, List.singleton_append, delItems, hd, h1]
      show Except.ok (spliceResult d ++ ds) = _
      rw [spliceResult_node hda]
      rfl
    · rcases List.mem_cons.mp he with rfl | he
      · exact hrd
      · exact h3 e he
    · rw [spliceResult_node rfl, hz h0, h4 h0]; rfl

theorem genF_res {fs fs' : Fields} (h : GenF (Stands L E w n) fs fs') (hf : ∀ f xs, (f, .list xs) ∈ fs → ∀ zs, .list zs ∉ xs) :
    ∃ ds, delFields isSearchDone fs' = .ok ds ∧ ResF L E w n fs ds ∧ (∀ p ∈ ds, Ready E w n p.2) ∧ (n = 0 → ds = fs') := by
  have cons : ∀ {f : F} {d : Val} {ds : Fields}, Ready E w n d → (∀ p ∈ ds, Ready E w n p.2) →
      ∀ p ∈ (f, d) :: ds, Ready E w n p.2 := by
    intro f d ds h1 h2 p hp
    rcases List.mem_cons.mp hp with rfl | hp
    · exact h1
    · exact h2 p hp
  induction h with
  | nil => exact ⟨[], by rw [delFields], .nil, by simp, fun _ => rfl⟩
  | const _ ih =>
    obtain ⟨ds, h1, h2, h3, h4⟩ := ih fun f xs hx => hf f xs (List.mem_cons_of_mem _ hx)
    exact ⟨_, by rw [delFields, h1], .const h2, cons .const h3, fun h0 => by rw [h4 h0]⟩
  | list hl _ ih =>
    obtain ⟨ds, h1, h2, h3, h4⟩ := ih fun f xs hx => hf f xs (List.mem_cons_of_mem _ hx)
    obtain ⟨es, h5, h6, h7, h8⟩ := genL_res hl (hf _ _ List.mem_cons_self)
    exact ⟨_, by rw [delFields, h5, h1], .field (.list h6) h2, cons (.list h7) h3, fun h0 => by rw [h4 h0, h8 h0]⟩
  | node hv hr hn _ ih =>
    obtain ⟨ds, h1, h2, h3, h4⟩ := ih fun f xs hx => hf f xs (List.mem_cons_of_mem _ hx)
    obtain ⟨hy, -, d, hd, hda, hres, hrd, hz⟩ := hr
    obtain ⟨c, l, gs, rfl⟩ := isAST_eq hy
    obtain ⟨c', l', gs', rfl⟩ := isAST_eq hda
    exact ⟨_, by rw [delFields, hd, h1]; rfl, .field hres h2, cons hrd h3, fun h0 => by rw [h4 h0, hz h0]⟩
  | deleted hv hr hn _ ih =>
    obtain ⟨c, l, gs, rfl⟩ := isAST_eq hr.1
    cases hn

theorem genF_fine {fs fs' : Fields} (h : GenF (Stands L E w n) fs fs') : GenF (Fine E w) fs fs' := by
  have hl : ∀ {xs ys : List Val}, GenL (Stands L E w n) xs ys → GenL (Fine E w) xs ys := by
    intro xs ys h
    induction h with
    | nil => exact .nil
    | other h _ ih => exact .other h ih
    | item h hr _ ih => exact .item h hr.fine ih
  induction h with
  | nil => exact .nil
  | const _ ih => exact .const ih
  | list h _ ih => exact .list (hl h) ih
  | node h hr hn _ ih => exact .node h hr.fine hn ih
  | deleted h hr hn _ ih => exact .deleted h hr.fine hn ih

theorem _root_.Mcpyrate.Expander.Final.fine {x y : Val} (h : Final E w y) (hx : x.isK .withitem = false) : Fine E w x y := by
  refine ⟨fun u hu => ?_, fun _ => ?_, fun hk => by rw [hx] at hk; cases hk⟩
  · rw [spliceResult_node h.isAST] at hu
    rcases List.mem_singleton.mp hu with rfl
    exact h.fineAt
  · rw [spliceResult_node h.isAST]; simp

theorem _root_.Mcpyrate.Expander.Final.like {x y : Val} (h : Final E w x) (hl : Like x y) : Final E w y :=
  ⟨by rw [hl.isAST]; exact h.isAST, h.clean.like hl, fun hn => h.names (hl.names.mp hn)⟩

theorem clear_like {t v m d : Val} (h : del isSearchDone v = .ok d) (hd : d.isAST = true) (hres : Res L E w n t d)
    (hr : Ready E w n d) (hz : n ≠ 0) (h1 : Like v m) {e : Val} (h2 : Like m e) : ∃ d, Clear L E w n t e d := by
  obtain ⟨d1, e1, l1⟩ := del_like isSearchDone_py _ _ _ h1 h
  obtain ⟨d2, e2, l2⟩ := del_like isSearchDone_py _ _ _ h2 e1
  exact ⟨d2, e2, by rw [l2.isAST, l1.isAST]; exact hd, .like (.like hres l1) l2, (hr.like l1).like l2, fun h0 => absurd h0 hz⟩

/-! ### the whole tree -/

/-- The state of the expander: as in `w`, at level `n`. -/
structure Fit (L : Lib σ) (w : W σ) (n : Nat) (s : Expander.St (User σ)) : Prop where
  hook : s.hook = none
  recursive : s.recursive = true
  value : value s.world = n
  bound : ∀ k, isbound s.world k = isbound w k
  locals : Dict.WF s.world.locals
  globals : Dict.WF s.world.globals
  ops : LocalOps L s.world

theorem Fit.visit {L : Lib σ} (hk : E.Keeps both) {m : Nat} {t : Val} {s s' : Expander.St (User σ)} {r : Except Exc Val} (hf : Fit L w n s)
    (h : visit E m t s = some (r, s')) : Fit L w n s' := by
  obtain ⟨hl, hb⟩ := visit_levels hk h
  have fr : Frame s s' := visit_pres frame_rel E.all_true m t s r s' h
  have hb' := hb
  simp only [bindings, Prod.mk.injEq] at hb'
  exact ⟨fr.hook.trans hf.hook, fr.recursive.trans hf.recursive, by rw [value_levels, hl]; exact hf.value,
    fun k => (bindings_isbound hb k).trans (hf.bound k), by rw [hb'.1]; exact hf.locals, by rw [hb'.2]; exact hf.globals,
    by unfold LocalOps; rw [hb'.1]; exact hf.ops⟩

theorem below_unmarked {t : Val} (h : Unmarked t) : below isSearchDone t = [] := by
  rw [List.filter_eq_nil_iff]
  intro u hu hc
  have hr := (preorder_reach t u hu).1
  cases u with
  | node c l fs =>
    cases c with
    | py k => cases hc
    | marker nm =>
      have := h _ hr nm l fs rfl
      subst this
      cases hc
  | const => cases hc
  | list => cases hc

theorem Unmarked.del {t : Val} (ht : t.isAST = true) (h : Unmarked t) : Markers.del isSearchDone t = .ok t :=
  del_id _ t (by cases t <;> first | rfl | cases ht) (below_unmarked h)

theorem Quotable.step {t x : Val} (h : Quotable E w t) (hc : Child t x) (hx : x.isAST = true) : Quotable E w x := by
  have hr : ∀ {u}, Reach x u → Reach t u := fun hu => .step hc hu
  exact ⟨hx, ⟨fun u hu => h.grammatical.1 u (hr hu), fun u hu => h.grammatical.2 u (hr hu)⟩,
    fun u hu => h.slices u (hr hu), fun u hu => h.flat u (hr hu), fun u hu => h.unmarked u (hr hu),
    fun u hu => h.noBlocks u (hr hu)⟩

theorem Quotable.child {t x : Val} (h : Quotable E w t) (hx : x ∈ childNodes t) : Quotable E w x :=
  h.step (childNodes_child hx) (childNodes_isAST hx)

theorem lookup_mem {fs : Fields} {f : F} {v : Val} (h : fs.lookup f = some v) : (f, v) ∈ fs := by
  induction fs with
  | nil => cases h
  | cons q fs ih =>
    obtain ⟨g, u⟩ := q
    rw [List.lookup_cons] at h
    split at h
    · rename_i he
      cases h
      rw [eq_of_beq he]; simp
    · exact List.mem_cons_of_mem _ (ih h)

theorem get_child {t v : Val} {f : F} (h : t.get? f = some v) (hv : v.isAST = true) : Child t v := by
  cases t with
  | node c l fs => exact .field (lookup_mem h) hv
  | const => cases h
  | list => cases h

theorem Quotable.slice {t x : Val} (h : Quotable E w t) (hk : t.isK .Subscript = true)
    (hx : t.get? .slice = some x) : Quotable E w x :=
  have hxa := h.slices t (.refl t) hk x hx
  h.step (get_child hx hxa) hxa

theorem Quotable.ready {t : Val} (h : Quotable E w t) : Ready E w n t := h.unmarked.ready h.flat h.isAST

theorem isNameMacro_ops (hL : HasOps L E) {w' : W σ} {t : Val} (hb' : ∀ k, isbound w' k = isbound w k)
    (ho : OnlyOps L E w t) : isNameMacro (fun i => (E.macros i).isName) w' t = false := by
  unfold isNameMacro
  split
  · rename_i hk
    split
    · rename_i k hid
      split
      · rename_i i hb
        rw [hb'] at hb
        cases hn : (E.macros i).isName with
        | false => exact hn
        | true =>
          by_cases he : k = ""
          · subst he
            rw [ho.2 i (.inr hb)] at hn
            cases hn
          · obtain ⟨op, rfl⟩ := ho.1 t (.refl t) k i _ _ (.name hk hid he hb hn)
            rw [hL op] at hn
            cases hn
      · rfl
    · rfl
  · rfl

theorem OnlyOps.child {t u : Val} (h : OnlyOps L E w t) (hc : Child t u) : OnlyOps L E w u :=
  ⟨fun v hv => h.1 v (.step hc hv), h.2⟩

theorem delFields_of_del {c : Cls} {l : Loc} {fs : Fields} (hc : isSearchDone c = false)
    (h : Markers.del isSearchDone (.node c l fs) = .ok (.node c l fs)) : delFields isSearchDone fs = .ok fs := by
  rw [del, hc] at h
  simp only [Bool.false_eq_true, if_false] at h
  split at h
  · cases h
  · rename_i hd; cases h; exact hd

theorem del_withField {t x' d : Val} {f : F} {k : K} (hk : t.isK k = true) (ht : Unmarked t) (hx : x'.isAST = true)
    (hd : Markers.del isSearchDone x' = .ok d) :
    Markers.del isSearchDone (withField t f x') = .ok (withField t f d) := by
  obtain ⟨l, fs, rfl⟩ := isK_eq hk
  have := delFields_setF (f := f) hx hd fs (delFields_of_del rfl (ht.del rfl))
  simp only [withField]
  rw [del, isSearchDone_py, this]
  rfl

theorem ready_withField {t d : Val} {f : F} {k : K} (hk : t.isK k = true) (ht : Ready E w n t) (hd : Ready E w n d) :
    Ready E w n (withField t f d) := by
  obtain ⟨l, fs, rfl⟩ := isK_eq hk
  cases ht with
  | py ht =>
    refine .py ?_
    intro p hp
    obtain ⟨⟨g, v⟩, hm, rfl⟩ := List.mem_map.mp hp
    dsimp only
    split
    · exact hd
    · exact ht _ hm

/-- An invocation that stays. -/
theorem done_stands {t x x' v m e : Val} {n' : Nat} (hk : t.isK .Subscript = true) (ht : Unmarked t) (htr : Ready E w n t)
    (hx : Stands L E w n' x x') (hn : n ≠ 0) (hn' : n' ≠ 0) (hv : replaceTree t x' = .ok v) (h1 : Like v m) (h2 : Like m e)
    (hr : ∀ d, Res L E w n' x d → Res L E w n t (withField t .slice d)) : isDone e = true ∧ Stands L E w n t e := by
  obtain ⟨hxa, -, d, hd, hda, hres, hrd, -⟩ := hx
  have hv' : v = searchDone (withField t .slice x') := by
    obtain ⟨l, fs, rfl⟩ := isK_eq hk
    cases hv; rfl
  subst hv'
  have h3 : Markers.del isSearchDone (searchDone (withField t .slice x')) = .ok (withField t .slice d) := by
    have h5 := del_withField (f := .slice) hk ht hxa hd
    show Markers.del isSearchDone (.node (.marker "QuasiquoteSearchDone") {} [(.body, withField t .slice x')]) = _
    rw [del]
    show delBody isSearchDone _ = _
    rw [delBody, if_pos rfl, h5]
  have he : isDone e = true := by rw [h2.isDone, h1.isDone]; rfl
  refine ⟨he, by rw [h2.isAST, h1.isAST]; rfl, (final_done he).fine ?_, ?_⟩
  · obtain ⟨l, fs, rfl⟩ := isK_eq hk; rfl
  · refine clear_like h3 ?_ (hr d hres) (ready_withField hk htr (hrd.positive hn' hn)) hn h1 h2
    obtain ⟨l, fs, rfl⟩ := isK_eq hk
    rfl

/-- A command for the compiler. -/
theorem marker_stands {op : Op} {t x x' v m e : Val} (hb : Bracket L E w t op x) (hk : t.isK .Subscript = true)
    (hx : Stands L E w 0 x x') (hv : Interpolated L E.filename op x x' v) (h1 : Like v m) (h2 : Like m e) :
    NoInvocations E w e ∧ Stands L E w 1 t e := by
  obtain ⟨hxa, hfine, d, hdx, hda, hres, hrd, hz⟩ := hx
  cases hz rfl
  have hxi : NoInvocations E w x' := (hfine.all x' (by rw [spliceResult_node hxa]; simp)).clean
  obtain ⟨c, l, fs, rfl⟩ := isAST_eq hxa
  have hni : ∀ {nm gs}, ¬ Invocation E w (marker nm gs) := by
    intro nm gs hi
    cases hi with
    | expr h => cases h
    | block h => cases h
    | decorator h => rcases h with h | h <;> cases h
    | name h => cases h
  have hnn : ∀ {nm gs}, ¬ Names E w (marker nm gs) := by
    rintro nm gs ⟨k, as, id, hc, -⟩
    cases hc with
    | plain h => cases h
    | bracket h => cases h
    | brackets h => cases h
    | parens h => cases h
  have hvn : Final E w v ∧ Markers.del isSearchDone v = .ok v ∧ Ready E w 1 v := by
    refine ⟨⟨?_, noInvocations_of (fun _ => ?_) fun u hu => ?_, ?_⟩, ?_, ?_⟩
    · cases hv <;> rfl
    · cases hv <;> exact hni
    · have : u = .node c l fs := by cases hv <;> simpa [marker, childNodes] using hu
      rw [this]; exact hxi
    · cases hv <;> exact hnn
    · have hone : ∀ gs, delFields isSearchDone gs = .ok gs →
          delFields isSearchDone ((.body, .node c l fs) :: gs) = .ok ((.body, .node c l fs) :: gs) := by
        intro gs hg
        rw [delFields, hdx, hg]; rfl
      have hmk : ∀ nm gs, isSearchDone (.marker nm) = false → delFields isSearchDone gs = .ok gs →
          Markers.del isSearchDone (marker nm gs) = .ok (marker nm gs) := by
        intro nm gs h1 h2
        unfold marker
        rw [del, h1, h2]; rfl
      cases hv <;> exact hmk _ _ rfl (hone _ rfl)
    · cases hv <;> exact .command (by decide) (by decide) rfl hxi hrd
  have hf := (Final.like hvn.1 h1).like h2
  refine ⟨hf.clean, hf.isAST, hf.fine ?_, clear_like hvn.2.1 hvn.1.isAST (.interpolated hb hres hv) hvn.2.2 (by decide) h1 h2⟩
  obtain ⟨l, fs, rfl⟩ := isK_eq hk; rfl

/-- A quote, compiled. -/
theorem compiled_stands {t x d c m e : Val} (hb : Bracket L E w t .q x) (hk : t.isK .Subscript = true)
    (hc : Compiled L E.filename w d c) (hr : Res L E w 1 x d) (hd : Ready E w 1 d)
    (hm : ∀ i, isbound w "mcpyrate" = some i → (E.macros i).isName = false) (h1 : Like c m) (h2 : Like m e) :
    NoInvocations E w e ∧ Stands L E w 0 t e := by
  obtain ⟨hf, hr0⟩ := hc.final hd hm
  have hf' := (Final.like hf h1).like h2
  have hr0' := (hr0.like h1).like h2
  refine ⟨hf'.clean, hf'.isAST, hf'.fine ?_, e, hr0'.unmarked.del hf'.isAST, hf'.isAST,
    .like (.like (.quote hb hr hc) h1) h2, hr0', fun _ => rfl⟩
  obtain ⟨l, fs, rfl⟩ := isK_eq hk; rfl

theorem visit_isDone {m : Nat} {t r : Val} {s s' : Expander.St (User σ)} (hd : isDone t = true)
    (h : visit E m t s = some (.ok r, s')) : r = t := by
  cases m with
  | zero => cases h
  | succ m =>
    change visitBody E (visit E m) t s = _ at h
    unfold visitBody at h
    rw [run_get, hd, Bool.or_true, if_pos rfl] at h
    cases h; rfl

theorem checkRet_val {v u : Val} (h : checkRet (.val v) = some u) (hv : v.isAST = true) : u = v := by
  obtain ⟨c, l, fs, rfl⟩ := isAST_eq hv
  cases h; rfl

theorem noInvocations_isbound {w' : W σ} (h : ∀ k, isbound w' k = isbound w k) {t : Val} (ht : NoInvocations E w t) :
    NoInvocations E w' t := fun u hu hi => ht u hu ((invocation_isbound h).mp hi)

end

/-! ### the compiler -/

mutual
theorem toVal_ofVal (x : Obj) (v : Val) (h : Obj.toVal x = some v) : x = Obj.ofVal v := by
  match x with
  | .const c => rw [Obj.toVal] at h; cases h; rw [Obj.ofVal]
  | .list xs =>
    rw [Obj.toVal] at h
    cases hx : Obj.toVals xs with
    | none => rw [hx] at h; cases h
    | some ys => rw [hx] at h; cases h; rw [Obj.ofVal, toVals_ofVals xs ys hx]
  | .node c l fs =>
    rw [Obj.toVal] at h
    cases hx : Obj.toFields fs with
    | none => rw [hx] at h; cases h
    | some ys => rw [hx] at h; cases h; rw [Obj.ofVal, toFields_ofFields fs ys hx]
  | .ext _ => cases h
termination_by structural x
theorem toVals_ofVals (xs : List Obj) (vs : List Val) (h : Obj.toVals xs = some vs) : xs = Obj.ofVals vs := by
  match xs with
  | [] => rw [Obj.toVals] at h; cases h; rw [Obj.ofVals]
  | x :: xs =>
    rw [Obj.toVals] at h
    split at h
    · rename_i y ys h1 h2
      cases h
      rw [Obj.ofVals, ← toVal_ofVal x y h1, ← toVals_ofVals xs ys h2]
    · cases h
termination_by structural xs
theorem toFields_ofFields (xs : List (F × Obj)) (vs : List (F × Val)) (h : Obj.toFields xs = some vs) :
    xs = Obj.ofFields vs := by
  match xs with
  | [] => rw [Obj.toFields] at h; cases h; rw [Obj.ofFields]
  | (f, x) :: xs =>
    rw [Obj.toFields] at h
    split at h
    · rename_i y ys h1 h2
      cases h
      rw [Obj.ofFields, ← toVal_ofVal x y h1, ← toFields_ofFields xs ys h2]
    · cases h
termination_by structural xs
end

theorem bindW_ok {α β : Type} {m : M Exc (W σ) α} {f : α → M Exc (W σ) β} {w w' : W σ} {b : β}
    (h : (m >>= f) w = some (.ok b, w')) : ∃ a w1, m w = some (.ok a, w1) ∧ f a w1 = some (.ok b, w') := by
  change M.bind m f w = _ at h
  simp only [M.bind] at h
  cases hm : m w with
  | none => rw [hm] at h; cases h
  | some p =>
    obtain ⟨r, w1⟩ := p
    rw [hm] at h
    cases r with
    | error e => cases h
    | ok a => exact ⟨a, w1, rfl, h⟩

theorem ofExceptW_ok {α : Type} {x : Except Exc α} {w w' : W σ} {b : α}
    (h : M.ofExcept x w = some (.ok b, w')) : x = .ok b ∧ w' = w := by
  cases x with
  | error e => cases h
  | ok a => cases h; exact ⟨rfl, rfl⟩

theorem asCode_ok {x : Obj} {v : Val} (h : asCode x = .ok v) : x = Obj.ofVal v := by
  unfold asCode at h
  split at h
  · rename_i u hu; cases h; exact toVal_ofVal x v hu
  · cases h

theorem compile_inv {L : Lib σ} {filename : String} {a : MArgs} {x v : Val} {w w' w0 : W σ}
    (hb : ∀ k, isbound w k = isbound w0 k) (h : compile L filename a x w = some (.ok v, w')) :
    ∃ d c, Markers.del isSearchDone x = .ok d ∧ Compiled L filename w0 d c ∧
      ((a.synt ≠ .block ∧ v = c) ∨ (a.synt = .block ∧ assign a.optionalVars c = .ok v)) := by
  unfold compile at h
  obtain ⟨d, w1, g1, k1⟩ := bindW_ok h
  obtain ⟨h1, e1⟩ := ofExceptW_ok g1
  obtain ⟨y, w2, h2, k2⟩ := bindW_ok k1
  obtain ⟨code, w3, h3, k3⟩ := bindW_ok k2
  obtain ⟨-, w4, h4, k4⟩ := bindW_ok k3
  obtain ⟨tree, w5, g5, k5⟩ := bindW_ok k4
  obtain ⟨h5, -⟩ := ofExceptW_ok g5
  have hend : (a.synt ≠ .block ∧ v = tree) ∨ (a.synt = .block ∧ assign a.optionalVars tree = .ok v) := by
    by_cases hs : a.synt = .block
    · rw [if_pos hs] at k5
      exact .inr ⟨hs, (ofExceptW_ok k5).1⟩
    · rw [if_neg hs] at k5
      have h' : (some (.ok tree, w5) : Option (Except Exc Val × W σ)) = some (.ok v, w') := k5
      cases h'
      exact .inl ⟨hs, rfl⟩
  subst e1
  refine ⟨d, tree, liftErr_ok h1, ?_, hend⟩
  have hbeq : (fun k => (isbound w0 k).map L.function) = fun k => (isbound w1 k).map L.function := by
    funext k; rw [hb]
  unfold astifyW at h2
  split at h2
  · cases h2
  · rename_i z st hz
    cases h2
    refine ⟨w1.user.st, st, ?_⟩
    rw [hbeq, ← asCode_ok h5]
    unfold Quotes.quote
    change M.bind _ _ _ = _
    simp only [M.bind, hz]
    rfl
  · cases h2

theorem compile_compiled {L : Lib σ} {filename : String} {a : MArgs} {x c : Val} {w w' w0 : W σ} (hs : a.synt = .expr)
    (hb : ∀ k, isbound w k = isbound w0 k) (h : compile L filename a x w = some (.ok c, w')) :
    ∃ d, Markers.del isSearchDone x = .ok d ∧ Compiled L filename w0 d c := by
  obtain ⟨d, c', h1, h2, ⟨-, rfl⟩ | ⟨h3, -⟩⟩ := compile_inv hb h
  · exact ⟨d, h1, h2⟩
  · rw [hs] at h3; cases h3

section
variable {L : Lib σ} {E : Env (User σ)} {w : W σ}

theorem visit_stands (hk : E.Keeps both) (hL : HasOps L E) : ∀ (m n : Nat) (t : Val)
    (s s' : Expander.St (User σ)) (r : Val), OnlyOps L E w t → Quotable E w t → Fit L w n s → visit E m t s = some (.ok r, s') →
    Stands L E w n t r := by
  intro m
  induction m with
  | zero => intro n t s s' r _ _ _ h; cases h
  | succ m ih =>
    intro n t s s' r ho hq hf h
    have hmc : ∀ i, isbound w "mcpyrate" = some i → (E.macros i).isName = false := fun i hi => ho.2 i (.inl hi)
    have hself : r = t → NoInvocations E w t → Stands L E w n t r := by
      rintro rfl hi
      refine ⟨hq.isAST, .self ?_, r, hq.unmarked.del hq.isAST, hq.isAST, res_inert r hq.isAST hi, hq.ready, fun _ => rfl⟩
      exact ⟨hq.isAST, hi, fun _ _ => rfl, fun hn => ⟨hn, hi r (.refl r hn.isDone)⟩⟩
    by_cases hd : isDone t = true
    · have := visit_isDone hd h
      subst this
      exact ⟨hq.isAST, .self (fineAt_done hd), r, hq.unmarked.del hq.isAST, hq.isAST, .done hd, hq.ready, fun _ => rfl⟩
    have hd : isDone t = false := by simpa using hd
    cases hnb : noBindings s.world with
    | true =>
      change visitBody E (visit E m) t s = _ at h
      unfold visitBody at h
      rw [run_get, hnb, Bool.true_or, if_pos rfl] at h
      cases h
      exact hself rfl (noInvocations_isbound (fun k => (hf.bound k).symm) (noInvocations_unbound hnb))
    | false =>
    rw [visit_node hq.isAST hd hnb] at h
    by_cases hi : Invocation E w t
    · have hbody : t.isK .With = true → hasField t .body = true := by
        intro hw
        have := hq.grammatical.2 t (.refl t)
        simp only [nestingOk, Bool.and_eq_true, hw, Bool.not_true, Bool.false_or] at this
        exact this.1.2
      obtain ⟨k, id, a, c, hiv⟩ := invocation_invokes hq.grammatical.1 hbody ((invocation_isbound hf.bound).mpr hi)
      obtain ⟨op, rfl⟩ := ho.1 t (.refl t) _ _ _ _ ((invokes_isbound hf.bound).mp hiv)
      have hb := (invokes_node hiv).2.2
      by_cases hbad : BadCall c
      · rw [(visitNode_invokes (vis := visit E m) hq.grammatical.1 hiv).2.2 hbad] at h
        cases h
      have hap := (visitNode_invokes (vis := visit E m) hq.grammatical.1 hiv).2.1 hbad
      rw [hap] at h
      obtain ⟨r0, s1, h4, h5⟩ := bind_ok h
      have hname : a.synt ≠ .name := by
        cases hiv with
        | name _ _ _ _ hn => rw [hL op] at hn; cases hn
        | expr => intro h; cases h
        | block => intro h; cases h
        | decorator => intro h; cases h
      unfold expandIn at h4
      rw [if_neg hname] at h4
      obtain ⟨ret, v, s0, s2, hrun, hck, hs2, fr, -, hcase⟩ := expand_inv hf.hook hf.recursive hb h4
      rw [hL op] at hrun
      dsimp only at hrun
      cases hiv with
      | name _ _ _ _ hn => rw [hL op] at hn; cases hn
      | block hkk => exact absurd hi (hq.noBlocks t (.refl t) hkk)
      | decorator =>
        exfalso
        cases op <;> simp [opFn, quote, exprUnquote, astUnquote, capture, run] at hrun <;> cases hrun
      | expr hkk hv hc ha hsl =>
        rename_i as x
        have hbr : Bracket L E w t op x :=
          ⟨k, _, c, .expr hkk hv hc ⟨ha.1, by rw [← hf.bound]; exact ha.2.1, ha.2.2⟩ hsl, rfl, rfl⟩
        have hE : Fit L w n (enterMacro k (L.id op) ⟨.expr, x, some as, none, t⟩ s) :=
          ⟨hf.hook, hf.recursive, hf.value, hf.bound, hf.locals, hf.globals, hf.ops⟩
        have hr0 : r0.isAST = true → r = r0 := by
          intro hr0
          have h5' : (some (.ok (if r0.isNone then coverageExpr (locOf t) else r0), s1) :
            Option (Except Exc Val × Expander.St (User σ))) = some (.ok r, s') := h5
          cases r0 with
          | node => cases h5'; rfl
          | const => cases hr0
          | list => cases hr0
        have hdone : ∀ {n' : Nat} {x' v' : Val}, ret = .val v' → replaceTree t x' = .ok v' → Stands L E w n' x x' → n ≠ 0 → n' ≠ 0 →
            (∀ d, Res L E w n' x d → Res L E w n t (withField t .slice d)) → Stands L E w n t r := by
          intro n' x' v' hret hrep hst hn hn' hres
          subst hret
          have hva : v'.isAST = true := by
            obtain ⟨l, fs, rfl⟩ := isK_eq hkk
            cases hrep; rfl
          have := checkRet_val hck hva
          subst this
          rcases hcase with ⟨rfl, -, -⟩ | ⟨e2, -, ⟨m1, l1, l2⟩, hvis⟩
          · cases hva
          · obtain ⟨he, hs⟩ := done_stands hkk hq.unmarked hq.ready hst hn hn' hrep l1 l2 hres
            have := visit_isDone he hvis
            subst this
            rw [hr0 hs.1]; exact hs
        have hsettle : ∀ {v' : Val}, ret = .val v' → v'.isAST = true →
            (∀ m1 e2, Like v' m1 → Like m1 e2 → NoInvocations E w e2 ∧ Stands L E w n t e2) → Stands L E w n t r := by
          intro v' hret hva hst
          subst hret
          have := checkRet_val hck hva
          subst this
          rcases hcase with ⟨rfl, -, -⟩ | ⟨e2, -, ⟨m1, l1, l2⟩, hvis⟩
          · cases hva
          · obtain ⟨he, hs⟩ := hst m1 e2 l1 l2
            have hb2 : ∀ k, isbound s2.world k = isbound w k := by
              have := run_ends both_local (visit_keeps both_local hk m) _ _ _
                (opFn_both L E.filename (fun i => (E.macros i).isName) op ⟨.expr, x, some as, none, t⟩ _) _ rfl _ _ hrun
              simp only [both, Prod.mk.injEq] at this
              intro k'
              rw [hs2, ← hE.bound]
              exact bindings_isbound this.1 k'
            have het : e2.isTree = true := by have := hs.1; cases e2 <;> first | rfl | cases this
            have hel : e2 ≠ .list [] := by have := hs.1; rintro rfl; cases this
            obtain ⟨rfl, -⟩ := visit_inert _ m e2 het hel (noInvocations_isbound hb2 he) _ _ hvis
            rw [hr0 hs.1]; exact hs
        have hox : OnlyOps L E w x := ho.child (get_child hsl (hq.slices t (.refl t) hkk x hsl))
        by_cases hop : op = .q
        · subst hop
          obtain ⟨x', v', s3, hvx, hret, hcs⟩ := quote_step hk (.inl rfl) hrun
          rcases hcs with ⟨hpos, hrep⟩ | ⟨hz, w1, w2, hbb, hcomp⟩
          · rw [hE.value] at hpos
            obtain ⟨n0, rfl⟩ : ∃ n0, n = n0 + 1 := ⟨n - 1, by omega⟩
            have hqx : Quotable E w x := hq.slice hkk hsl
            have hfx : Fit L w (n0 + 2) (raised L (enterMacro k (L.id .q) ⟨.expr, x, some as, none, t⟩ s)) := by
              refine ⟨rfl, rfl, ?_, fun k' => ?_, quoteBindings_WF L hE.globals, hE.globals,
                quoteBindings_ops L hE.globals⟩
              · show value (enterMacro k (L.id .q) ⟨.expr, x, some as, none, t⟩ s).world + 1 = _
                rw [hE.value]
              · exact (isbound_quoteBindings hE.locals hE.globals hE.ops k').trans
                  (hE.bound k')
            exact hdone hret hrep (ih _ _ _ _ _ hox hqx hfx hvx) (by omega) (by omega) fun d hd => .innerQuote hbr hd
          · rw [hE.value] at hz
            subst hz
            have hqx : Quotable E w x := hq.slice hkk hsl
            have hfx : Fit L w 1 (raised L (enterMacro k (L.id .q) ⟨.expr, x, some as, none, t⟩ s)) := by
              refine ⟨rfl, rfl, ?_, fun k' => ?_, quoteBindings_WF L hE.globals, hE.globals,
                quoteBindings_ops L hE.globals⟩
              · show value (enterMacro k (L.id .q) ⟨.expr, x, some as, none, t⟩ s).world + 1 = _
                rw [hE.value]
              · exact (isbound_quoteBindings hE.locals hE.globals hE.ops k').trans
                  (hE.bound k')
            obtain ⟨-, -, d, hdel, -, hres, hrd, -⟩ := ih _ _ _ _ _ hox hqx hfx hvx
            obtain ⟨d', hdel', hc⟩ := compile_compiled (w0 := w) rfl
              (fun k' => (bindings_isbound hbb k').trans (hE.bound k')) hcomp
            rw [hdel] at hdel'
            cases hdel'
            obtain ⟨hfin, -⟩ := hc.final hrd hmc
            exact hsettle hret hfin.isAST fun m1 e2 l1 l2 => compiled_stands hbr hkk hc hres hrd hmc l1 l2
        · obtain ⟨n', x', v', s3, hval, hvx, hret, hcs⟩ := op_step hk hop rfl (isNameMacro_ops hL hE.bound hox) hrun
          have hn : n = n' + 1 := hE.value.symm.trans hval
          subst hn
          have hqx : Quotable E w x := hq.slice hkk hsl
          have hfx : Fit L w n' (lower n' (enterMacro k (L.id op) ⟨.expr, x, some as, none, t⟩ s)) :=
            ⟨hE.hook, rfl, rfl, hE.bound, hE.locals, hE.globals, hE.ops⟩
          rcases hcs with ⟨hpos, hrep⟩ | ⟨hz, hint⟩
          · obtain ⟨n0, rfl⟩ : ∃ n0, n' = n0 + 1 := ⟨n' - 1, by omega⟩
            exact hdone hret hrep (ih _ _ _ _ _ hox hqx hfx hvx) (by omega) (by omega) fun d hd => .innerUnquote hbr hop hd
          · subst hz
            have hva : v'.isAST = true := by cases hint <;> rfl
            exact hsettle hret hva fun m1 e2 l1 l2 => marker_stands hbr hkk (ih _ _ _ _ _ hox hqx hfx hvx) hint l1 l2
    · rw [visitNode_other hq.grammatical.1 fun h => hi ((invocation_isbound hf.bound).mp h)] at h
      by_cases hkn : t.isK .Name = true
      · rw [if_pos hkn] at h
        cases h
        refine hself rfl (noInvocations_of (fun _ => hi) fun u hu => ?_)
        have := hq.grammatical.2 t (.refl t)
        simp only [nestingOk, Bool.and_eq_true, hkn, Bool.not_true, Bool.false_or] at this
        exact noInvocations_ctx (List.all_eq_true.mp this.2 u hu)
      · rw [if_neg hkn] at h
        obtain ⟨c, l, fs, rfl⟩ := isAST_eq hq.isAST
        obtain ⟨fs', s1, h1, h2⟩ := bind_ok (m := genericFields (visit E m) fs) h
        have h2' : (some (.ok (.node c l fs'), s1) : Option (Except Exc Val × Expander.St (User σ))) = some (.ok r, s') := h2
        cases h2'
        have hgen := genericFields_gen (R := Stands L E w n) (vis := visit E m) (W := Fit L w n) (G := fun _ => True)
          (fun x s1 r s2 hw hv => ⟨hw.visit hk hv, fun _ => trivial⟩) c l fs s s' fs'
          (fun x hx s1 y s2 hw hv _ => ih n x s1 s2 y (ho.child (childNodes_child hx)) (hq.child hx) hw hv) hf h1
        have hgf := hgen.2.2 trivial
        obtain ⟨ds, hds, hres, hrd, hz⟩ := genF_res hgf (hq.flat _ (.refl _) c l fs rfl)
        have hc : isSearchDone c = false := by
          cases c with
          | py => rfl
          | marker nm => have := hq.unmarked _ (.refl _) nm l fs rfl; subst this; rfl
        refine ⟨rfl, reassemble hq.grammatical hi (by rintro rfl; exact hkn rfl) (genF_fine hgf), .node c l ds, ?_, rfl,
          .node hi hres, ?_, fun h0 => by rw [hz h0]⟩
        · rw [del, hc]
          simp [hds]
        · cases c with
          | py => exact .py hrd
          | marker nm => have := hq.unmarked _ (.refl _) nm l fs rfl; subst this; exact .done hrd

end

/-- The statements of a quoted block. -/
theorem visitElts_stands {L : Lib σ} {E : Env (User σ)} {w : W σ} (hk : E.Keeps both) (hL : HasOps L E)
    (m n : Nat) : ∀ (xs : List Val) (s s' : Expander.St (User σ)) (ys : List Val), (∀ x ∈ xs, OnlyOps L E w x) →
    (∀ x ∈ xs, Quotable E w x) → Fit L w n s → visitElts (visit E m) xs s = some (.ok ys, s') →
    (∀ y ∈ ys, y.isAST = true) ∧ ys.length = xs.length ∧ ∃ ds, delElts isSearchDone ys = .ok ds ∧ (∀ d ∈ ds, d.isAST = true) ∧
      ResL L E w n xs ds := by
  intro xs
  induction xs with
  | nil =>
    intro s s' ys _ _ _ h
    have h' : (some (.ok [], s) : Option (Except Exc (List Val) × Expander.St (User σ))) = some (.ok ys, s') := h
    cases h'
    exact ⟨by simp, rfl, [], by rw [delElts], by simp, .nil⟩
  | cons x xs ih =>
    intro s s' ys ho hq hf h
    obtain ⟨y, s1, h1, h⟩ := bind_ok (m := visit E m x) h
    obtain ⟨zs, s2, h2, h⟩ := bind_ok h
    have h' : (some (.ok (y :: zs), s2) : Option (Except Exc (List Val) × Expander.St (User σ))) = some (.ok ys, s') := h
    cases h'
    obtain ⟨hy, -, d, hd, hda, hres, -, -⟩ := visit_stands hk hL m n x s s1 y (ho x (by simp)) (hq x (by simp)) hf h1
    obtain ⟨h3, h4, ds, h5, h6, h7⟩ := ih s1 s' zs (fun z hz => ho z (by simp [hz])) (fun z hz => hq z (by simp [hz])) (hf.visit hk h1) h2
    refine ⟨?_, by simp [h4], d :: ds, by rw [delElts, hd, h5], ?_, .item hres h7⟩
    · intro z hz
      rcases List.mem_cons.mp hz with rfl | hz
      · exact hy
      · exact h3 z hz
    · intro z hz
      rcases List.mem_cons.mp hz with rfl | hz
      · exact hda
      · exact h6 z hz

theorem visit_block_stands {L : Lib σ} {E : Env (User σ)} {w : W σ} (hk : E.Keeps both) (hL : HasOps L E)
    {m n : Nat} {xs : List Val} {s s' : Expander.St (User σ)} {r : Val} (hne : xs ≠ []) (ho : OnlyOps L E w (.list xs)) (hq : ∀ x ∈ xs, Quotable E w x)
    (hf : Fit L w n s) (h : visit E m (.list xs) s = some (.ok r, s')) :
    ∃ ds, Markers.del isSearchDone r = .ok (.list ds) ∧ ResL L E w n xs ds := by
  have hself : r = .list xs → (∀ x ∈ xs, NoInvocations E w x) → ∃ ds, Markers.del isSearchDone r = .ok (.list ds) ∧
      ResL L E w n xs ds := by
    rintro rfl hi
    have ha : ∀ x ∈ xs, x.isAST = true := fun x hx => (hq x hx).isAST
    have hd : delElts isSearchDone xs = .ok xs := by
      have : ∀ ys : List Val, (∀ y ∈ ys, Quotable E w y) → delElts isSearchDone ys = .ok ys := by
        intro ys
        induction ys with
        | nil => intro _; rw [delElts]
        | cons y ys ih =>
          intro hy
          rw [delElts, (hy y (by simp)).unmarked.del (hy y (by simp)).isAST, ih fun z hz => hy z (by simp [hz])]
      exact this xs hq
    exact ⟨xs, by rw [del, hd]; dsimp only; rw [Markers.flattenV_nodes ha], resL_inert xs fun x hx _ => hi x hx⟩
  cases m with
  | zero => cases h
  | succ m =>
    change visitBody E (visit E m) (.list xs) s = _ at h
    unfold visitBody at h
    rw [run_get] at h
    cases hnb : noBindings s.world with
    | true =>
      rw [hnb, Bool.true_or, if_pos rfl] at h
      cases h
      exact hself rfl fun x _ => noInvocations_isbound (fun k => (hf.bound k).symm) (noInvocations_unbound hnb)
    | false =>
      rw [hnb, Bool.false_or, if_neg (by simp [isDone])] at h
      dsimp only at h
      obtain ⟨ys, s1, h1, h2⟩ := bind_ok h
      obtain ⟨h3, h4, ds, h5, h6, h7⟩ := visitElts_stands hk hL m n xs s s1 ys (fun x hx => ho.child (.elt hx (hq x hx).isAST)) hq hf h1
      rw [Markers.flattenV_nodes h3] at h2
      have hye : ys.isEmpty = false := by
        cases ys with
        | nil => cases xs with
          | nil => exact absurd rfl hne
          | cons => cases h4
        | cons => rfl
      rw [hye] at h2
      cases h2
      exact ⟨ds, by show del isSearchDone (.list ys) = _; rw [del, h5]; dsimp only; rw [Markers.flattenV_nodes h6], h7⟩

end Mcpyrate.QuoteOps
