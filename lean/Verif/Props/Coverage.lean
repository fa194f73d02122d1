import Verif.Lemmas.ExpanderSyntax
import Verif.Spec.Coverage
import Verif.Spec.ExpanderExample
/-
C23 deleting an invocation leaves correct code and coverage.

Full property: if an expr or identifier macro returns None, the invocation is replaced by an
expression that evaluates to None; if a block or decorator macro returns None the invocation
disappears; in every case where the invocation has location information, the output starts with a
dummy assignment located at the invocation.

The last part fails when the invocation has a column but no line number (`C23_coverage_violated`):
the code tests for "no line number and no column", then reads the line number.
-/
namespace Mcpyrate
open Py Expander

variable {υ : Type}

theorem locatedAt_copy (l : Loc) : LocatedAt l (copyLoc l) := by
  refine ⟨?_, ?_, ?_, ?_⟩ <;> intro n h <;> simp [copyLoc, h, FixLocations.orNone]

theorem deletedExpr_coverage (l : Loc) : DeletedExpr l (coverageExpr l) := by
  refine ⟨_, _, _, rfl, locatedAt_copy l, ?_⟩
  refine .call rfl rfl (.lambda rfl rfl rfl ?_ rfl rfl rfl) rfl rfl (.const rfl rfl)
  intro f hf
  simp only [List.mem_cons, List.not_mem_nil, or_false] at hf
  rcases hf with rfl | rfl | rfl | rfl | rfl <;> rfl

theorem coverageDummy_stmt (f k : String) (l : Loc) : CoverageDummy l (coverageStmt f k l) :=
  ⟨_, _, _, _, _, _, locatedAt_copy l, locatedAt_copy l, locatedAt_copy l, rfl⟩

theorem expand_none {E : Env υ} {vis : Val → X υ Val} {k : String} {id : Nat} {a : MArgs} {s s1 : St υ}
    (hb : isbound s.world k = some id) (h : applyMacro E vis id k a s = some (.ok (.val .none), s1)) :
    expand E vis k a s = some (.ok .none, s1) := by
  have h1 : expandTry E vis k a s = some (.ok .none, s1) := by
    unfold expandTry
    rw [run_get, hb]
    simp only [Bind.bind, M.bind, h]
    rfl
  unfold expand
  simp only [Bind.bind, M.bind, M.attempt, h1]
  rfl

/-- C23: an expr macro that returns None leaves an expression that evaluates to None, at the location
of the invocation. -/
theorem C23_expr_deleted (E : Env υ) (n : Nat) (t c : Val) (s s1 : St υ) (k : String) (id : Nat)
    (a : MArgs) (hw : WellFormed t) (hi : Invokes E s.world t k id a c) (hc : ¬ BadCall c)
    (hs : a.synt = .expr) (h : applyMacro E (visit E n) id k a s = some (.ok (.val .none), s1)) :
    ∃ v, visit E (n + 1) t s = some (.ok v, s1) ∧ DeletedExpr (locOf t) v := by
  obtain ⟨h1, h2, h3⟩ := invokes_node hi
  refine ⟨_, ?_, deletedExpr_coverage _⟩
  rw [visit_node h1 h2 (bound_noBindings h3)]
  have := (visitNode_invokes (vis := visit E n) hw hi).2.1 hc
  rw [this]
  have he : expandIn E (visit E n) k a s = some (.ok .none, s1) := by
    unfold expandIn
    rw [if_neg (by rw [hs]; decide)]
    exact expand_none h3 h
  rw [run_bind he]
  unfold afterExpand
  rw [hs]
  rfl

/-- C23: so does an identifier macro. -/
theorem C23_name_deleted (E : Env υ) (n : Nat) (t c : Val) (s s1 : St υ) (k : String) (id : Nat)
    (a : MArgs) (hw : WellFormed t) (hi : Invokes E s.world t k id a c) (hs : a.synt = .name)
    (h : applyMacro E (visit E n) id k a { s with recursive := false } = some (.ok (.val .none), s1)) :
    ∃ v, visit E (n + 1) t s = some (.ok v, { s1 with recursive := s.recursive }) ∧
      DeletedExpr (locOf t) v := by
  obtain ⟨h1, h2, h3⟩ := invokes_node hi
  refine ⟨_, ?_, deletedExpr_coverage _⟩
  rw [visit_node h1 h2 (bound_noBindings h3)]
  have hc : ¬ BadCall c := by
    cases hi with
    | expr | block | decorator => cases hs
    | name hk => intro hb; exact absurd (isK_inj hk hb.1) (by decide)
  have := (visitNode_invokes (vis := visit E n) hw hi).2.1 hc
  rw [this]
  have he : expandIn E (visit E n) k a s = some (.ok .none, { s1 with recursive := s.recursive }) := by
    unfold expandIn
    rw [if_pos hs]
    simp only [withMode, M.bracket]
    rw [expand_none (s := { s with recursive := false }) h3 h]
  rw [run_bind he]
  unfold afterExpand
  rw [hs]
  rfl

/-- What a visit of a statement invocation returns, given the expansion. -/
theorem visit_stmt {E : Env υ} {n : Nat} {t c : Val} {s s1 : St υ} {k : String} {id : Nat} {a : MArgs}
    {v : Val} (hw : WellFormed t) (hi : Invokes E s.world t k id a c) (hc : ¬ BadCall c)
    (hs : a.synt = .block ∨ a.synt = .decorator)
    (h : expand E (visit E n) k a s = some (.ok v, s1)) :
    visit E (n + 1) t s = some (insertCoverage E.filename k v (reportedAt t c a.synt), s1) := by
  obtain ⟨h1, h2, h3⟩ := invokes_node hi
  rw [visit_node h1 h2 (bound_noBindings h3)]
  have := (visitNode_invokes (vis := visit E n) hw hi).2.1 hc
  rw [this]
  have he : expandIn E (visit E n) k a s = some (.ok v, s1) := by
    unfold expandIn
    rw [if_neg (by rcases hs with hs | hs <;> rw [hs] <;> decide), h]
  rw [run_bind he]
  unfold afterExpand reportedAt
  rcases hs with hs | hs <;> rw [hs]
  · change M.ofExcept (insertCoverage E.filename k v (locOf t)) s1 =
      some (insertCoverage E.filename k v (locOf t), s1)
    cases insertCoverage E.filename k v (locOf t) <;> rfl
  · change M.ofExcept (insertCoverage E.filename k v (locOf c)) s1 =
      some (insertCoverage E.filename k v (locOf c), s1)
    cases insertCoverage E.filename k v (locOf c) <;> rfl

/-- C23: if a block or decorator macro returns None, nothing of the invocation is left but the dummy
assignment; if the invocation has no location, nothing at all. -/
theorem C23_stmt_deleted (E : Env υ) (n : Nat) (t c : Val) (s s1 : St υ) (k : String) (id : Nat)
    (a : MArgs) (hw : WellFormed t) (hi : Invokes E s.world t k id a c) (hc : ¬ BadCall c)
    (hs : a.synt = .block ∨ a.synt = .decorator)
    (h : applyMacro E (visit E n) id k a s = some (.ok (.val .none), s1)) :
    ((reportedAt t c a.synt).lineno ≠ .missing → ∃ d,
      visit E (n + 1) t s = some (.ok (.list [d]), s1) ∧ CoverageDummy (reportedAt t c a.synt) d) ∧
    ((reportedAt t c a.synt).lineno = .missing → (reportedAt t c a.synt).colOffset = .missing →
      visit E (n + 1) t s = some (.ok .none, s1)) := by
  rw [visit_stmt hw hi hc hs (expand_none (invokes_node hi).2.2 h)]
  constructor
  · intro hl
    exact ⟨_, by simp [insertCoverage, hl], coverageDummy_stmt E.filename k _⟩
  · intro hl hl2
    simp [insertCoverage, hl, hl2]

/-- C23: in general the statements of the expansion are there, after the dummy assignment if the
invocation has a location. -/
theorem C23_stmt_kept (E : Env υ) (n : Nat) (t c : Val) (s s1 : St υ) (k : String) (id : Nat)
    (a : MArgs) (v : Val) (hw : WellFormed t) (hi : Invokes E s.world t k id a c) (hc : ¬ BadCall c)
    (hs : a.synt = .block ∨ a.synt = .decorator)
    (hv : v.isNone = true ∨ v.isAST = true ∨ v.isList = true)
    (h : expand E (visit E n) k a s = some (.ok v, s1)) :
    ((reportedAt t c a.synt).lineno ≠ .missing → ∃ d,
      visit E (n + 1) t s = some (.ok (.list (d :: stmts v)), s1) ∧
        CoverageDummy (reportedAt t c a.synt) d) ∧
    ((reportedAt t c a.synt).lineno = .missing → (reportedAt t c a.synt).colOffset = .missing →
      visit E (n + 1) t s = some (.ok v, s1)) := by
  rw [visit_stmt hw hi hc hs h]
  constructor
  · intro hl
    refine ⟨_, ?_, coverageDummy_stmt E.filename k _⟩
    cases v with
    | node => simp [insertCoverage, hl, stmts]
    | list => simp [insertCoverage, hl, stmts]
    | const c =>
      cases c <;> first
        | (exfalso; simp [Val.isNone, Val.isAST, Val.isList] at hv; done)
        | simp [insertCoverage, hl, stmts]
  · intro hl hl2
    simp [insertCoverage, hl, hl2]

/-- C23: whatever the macro does, and in whatever mode: if the visit of a block or decorator
invocation with a line number returns, then the result starts with the dummy assignment, located at
the invocation.  (Missing: invocations with a column but without a line number.) -/
theorem C23_coverage_partial (E : Env υ) (mode : Mode) (t c : Val) (s s' : St υ) (k : String) (id : Nat)
    (a : MArgs) (r : Val) (hw : WellFormed t) (hi : Invokes E s.world t k id a c)
    (hs : a.synt = .block ∨ a.synt = .decorator) (hl : (reportedAt t c a.synt).lineno ≠ .missing)
    (h : Runs E mode t s (.ok r) s') :
    ∃ d rest, r = wrap mode (.list (d :: rest)) ∧ CoverageDummy (reportedAt t c a.synt) d := by
  obtain ⟨n, b, r0, s0, hv, -, -, hr, -⟩ := h.toVisit
  obtain ⟨v0, rfl, rfl⟩ := hr r rfl
  suffices ∃ d rest, v0 = .list (d :: rest) ∧ CoverageDummy (reportedAt t c a.synt) d by
    obtain ⟨d, rest, rfl, hd⟩ := this; exact ⟨d, rest, rfl, hd⟩
  obtain ⟨h1, h2, h3⟩ := invokes_node hi
  cases n with
  | zero => cases hv
  | succ n =>
    have hi' : Invokes E ({ s with recursive := b } : St υ).world t k id a c := hi
    by_cases hc : BadCall c
    · have h4 := (visit_node (n := n) (s := { s with recursive := b }) h1 h2 (bound_noBindings h3)).symm.trans hv
      have := (visitNode_invokes (s := { s with recursive := b }) (vis := visit E n) hw hi').2.2 hc
      rw [this] at h4
      cases h4
    · cases he : expand E (visit E n) k a { s with recursive := b } with
      | none =>
        have h4 := (visit_node (n := n) (s := { s with recursive := b }) h1 h2 (bound_noBindings h3)).symm.trans hv
        have := (visitNode_invokes (s := { s with recursive := b }) (vis := visit E n) hw hi').2.1 hc
        unfold Applies expandIn at this
        rw [if_neg (by rcases hs with hs | hs <;> rw [hs] <;> decide)] at this
        rw [this] at h4
        simp only [Bind.bind, M.bind, he] at h4
        cases h4
      | some p =>
        obtain ⟨r1, s1⟩ := p
        cases r1 with
        | error e =>
          have h4 := (visit_node (n := n) (s := { s with recursive := b }) h1 h2 (bound_noBindings h3)).symm.trans hv
          have := (visitNode_invokes (s := { s with recursive := b }) (vis := visit E n) hw hi').2.1 hc
          unfold Applies expandIn at this
          rw [if_neg (by rcases hs with hs | hs <;> rw [hs] <;> decide)] at this
          rw [this] at h4
          simp only [Bind.bind, M.bind, he] at h4
          cases h4
        | ok v =>
          have h4 := (visit_stmt (s := { s with recursive := b }) hw hi' hc hs he).symm.trans hv
          have h5 : insertCoverage E.filename k v (reportedAt t c a.synt) = .ok v0 := by
            have := congrArg (Option.map (·.1)) h4; simpa using this
          unfold insertCoverage at h5
          rw [if_neg (by simp [hl]), if_neg hl] at h5
          split at h5
          · cases h5; exact ⟨_, _, rfl, coverageDummy_stmt _ _ _⟩
          · cases h5; exact ⟨_, _, rfl, coverageDummy_stmt _ _ _⟩
          · cases h5; exact ⟨_, _, rfl, coverageDummy_stmt _ _ _⟩
          · cases h5

section
open Expander.Ex

/-- `with d: pass` at a location -/
def withAt (l : Loc) : Val :=
  .node (.py .With) l [(.items, .list [mk .withitem [(.context_expr, name "d"), (.optional_vars, .none)]]),
    (.body, .list [pass]), (.type_comment, .none)]

/-- C23 fails: with a column but no line number the expander raises AttributeError. -/
theorem C23_coverage_violated :
    Runs env .recursively (withAt { colOffset := .int 4 }) start (.error (.py .attributeError))
      { start with log := [⟨"d", 6, ⟨.block, .list [pass], some [], some .none,
        withAt { colOffset := .int 4 }⟩, 0, true, some 6⟩] } :=
  ⟨9, by decide +kernel⟩

/-! ### Concrete cases -/

def loc3 : Loc := ⟨.int 3, .int 4, .int 3, .int 9⟩

-- `with d: pass` at line 3 leaves the dummy assignment
example : (visitAs env 9 .recursively (withAt loc3) start).map (·.1) =
    some (.ok (.list [done (.node (.py .Assign) loc3
      [(.targets, .list [.node (.py .Name)
          loc3           [(.id, .str "_mcpyrate_coverage"), (.ctx, mk .Store [])]]),
       (.value, .node (.py .Constant)
          loc3           [(.value, .str "a.py:3 invoked macro 'd'"), (.kind, .none)]),
       (.type_comment, .none)])])) := by decide +kernel

-- the hypotheses of the theorems hold for it
example : Invokes env world (withAt { lineno := .int 3 }) "d" 6
    ⟨.block, .list [pass], some [], some .none, withAt { lineno := .int 3 }⟩ (name "d") :=
  .block (before := []) (after := []) (item := mk .withitem [(.context_expr, name "d"), (.optional_vars, .none)])
    rfl rfl (by simp) rfl (.plain rfl rfl) ⟨by decide, by decide, .inl rfl⟩ rfl

example : ¬ BadCall (name "d") := fun h => by cases h.1

-- `d[x]` leaves `(lambda: None)()`
example : (visitAs env 9 .recursively (sub (name "d") (name "x")) start).map (·.1) =
    some (.ok (coverageExpr {})) := by decide +kernel

end
end Mcpyrate
