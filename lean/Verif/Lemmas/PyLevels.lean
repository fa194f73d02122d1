import Verif.Lemmas.PyParser
/-
Precedence: an expression of some level of the grammar is also one of all looser levels, if nothing follows that would
continue it there.
-/
namespace Mcpyrate.PyText
open Py

/-- The nonterminals, from loose to tight. -/
def ntAt : Nat → NT
  | 0 => .expr | 1 => .disj | 2 => .conj | 3 => .inv | 4 => .cmp
  | 5 => .bin 0 | 6 => .bin 1 | 7 => .bin 2 | 8 => .bin 3 | 9 => .bin 4 | 10 => .bin 5
  | 11 => .factor | 12 => .power | 13 => .await | _ => .primary

/-- The level on which a symbol after an expression continues it. -/
def contLevel : Tok → Option Nat
  | .sym .kIf => some 0
  | .sym .kOr => some 1
  | .sym .kAnd => some 2
  | .sym .kNot | .sym .kIn | .sym .kIs | .sym .eqEq | .sym .ne | .sym .lt | .sym .le | .sym .gt | .sym .ge => some 4
  | .sym .bar => some 5
  | .sym .caret => some 6
  | .sym .amp => some 7
  | .sym .ltLt | .sym .gtGt => some 8
  | .sym .plus | .sym .minus => some 9
  | .sym .star | .sym .slash | .sym .slashSlash | .sym .percent | .sym .at => some 10
  | .sym .starStar => some 12
  | .sym .dot | .sym .lpar | .sym .lbrack => some 14
  | _ => none

/-- Nothing follows that continues an expression of level `L` or tighter. -/
def NoCont (L : Nat) (rest : List Tok) : Prop := ∀ t r, rest = t :: r → ∀ k, contLevel t = some k → k < L

theorem NoCont.nil {L} : NoCont L [] := fun _ _ h => nomatch h
theorem NoCont.cons {L t r} (h : ∀ k, contLevel t = some k → k < L) : NoCont L (t :: r) := fun _ _ e => by
  cases e; exact h
theorem NoCont.none {L t r} (h : contLevel t = Option.none) : NoCont L (t :: r) :=
  NoCont.cons fun k hk => by rw [h] at hk; exact nomatch hk
theorem NoCont.lt {L t r j} (h : contLevel t = some j) (hj : j < L) : NoCont L (t :: r) :=
  NoCont.cons fun k hk => by rw [h] at hk; cases hk; exact hj
theorem NoCont.mono {L M rest} (h : NoCont L rest) (hl : L ≤ M) : NoCont M rest := fun t r e k hk =>
  Nat.lt_of_lt_of_le (h t r e k hk) hl
theorem NoCont.at {L t r j} (h : NoCont L (t :: r)) (hc : contLevel t = some j) : j < L := h t r rfl j hc

/-- The level of the prefix operators. -/
def startLevel : Tok → Nat
  | .sym .kLambda => 0
  | .sym .kNot => 3
  | .sym .plus | .sym .minus | .sym .tilde => 11
  | .sym .kAwait => 13
  | _ => 14

def StartsAt (K : Nat) (ts : List Tok) : Prop := ∃ t r, ts = t :: r ∧ K ≤ startLevel t

theorem seq_some {β} {v : Val} {r : List Tok} {f : Val → List Tok → Option β} : seq (some (v, r)) f = f v r := rfl

theorem full_at {nt ts} : full nt ts = parseBody full nt ts := full_eq nt ts

theorem disjRest_stop {rest} (h : NoCont 1 rest) : full .disjRest rest = some (.list [], rest) := by
  rw [full_at]; show pDisjRest full rest = _
  unfold pDisjRest
  split
  · exact absurd (h.at rfl) (by decide)
  · rfl

theorem conjRest_stop {rest} (h : NoCont 2 rest) : full .conjRest rest = some (.list [], rest) := by
  rw [full_at]; show pConjRest full rest = _
  unfold pConjRest
  split
  · exact absurd (h.at rfl) (by decide)
  · rfl

theorem cmpRest_stop {rest} (h : NoCont 4 rest) : full .cmpRest rest = some (.list [], rest) := by
  rw [full_at]; show pCmpRest full rest = _
  have : cmpOp? rest = none := by
    unfold cmpOp?
    split
    all_goals first
      | rfl
      | exact absurd (h.at rfl) (by decide)
  unfold pCmpRest
  rw [this]

theorem binSym_level {l : Nat} {s : Sym} {k : K} (h : binSym l s = some k) : contLevel (.sym s) = some (5 + l) ∧ l < 6 := by
  unfold binSym at h
  split at h <;> first | exact ⟨rfl, by decide⟩ | exact nomatch h

theorem binRest_stop {l a rest} (h : NoCont (5 + l) rest) : full (.binRest l a) rest = some (a, rest) := by
  rw [full_at]; show pBinRest full l a rest = _
  have : binOp? l rest = none := by
    unfold binOp?
    split
    · rename_i s r
      cases hb : binSym l s with
      | none => rfl
      | some k => exact absurd (h.at (binSym_level hb).1) (by omega)
    · rfl
  unfold pBinRest
  rw [this]

theorem primRest_stop {a rest} (h : NoCont 14 rest) : full (.primRest a) rest = some (a, rest) := by
  rw [full_at]; show pPrimRest full a rest = _
  unfold pPrimRest
  split
  all_goals first
    | rfl
    | exact absurd (h.at rfl) (by decide)

theorem lift_expr {ts v rest} (h : full .disj ts = some (v, rest)) (hs : StartsAt 1 ts) (hc : NoCont 0 rest) :
    full .expr ts = some (v, rest) := by
  rw [full_at]; show pExpr full ts = _
  obtain ⟨t, r, rfl, ht⟩ := hs
  unfold pExpr
  split
  · rename_i e; cases e; exact absurd ht (by decide)
  · rw [h, seq_some]
    unfold ternary
    split
    · exact absurd (hc.at rfl) (by decide)
    · rfl

theorem lift_disj {ts v rest} (h : full .conj ts = some (v, rest)) (hc : NoCont 1 rest) : full .disj ts = some (v, rest) := by
  rw [full_at]; show pDisj full ts = _
  unfold pDisj
  rw [h, seq_some, disjRest_stop hc]; rfl

theorem lift_conj {ts v rest} (h : full .inv ts = some (v, rest)) (hc : NoCont 2 rest) : full .conj ts = some (v, rest) := by
  rw [full_at]; show pConj full ts = _
  unfold pConj
  rw [h, seq_some, conjRest_stop hc]; rfl

theorem lift_inv {ts v rest} (h : full .cmp ts = some (v, rest)) (hs : StartsAt 4 ts) : full .inv ts = some (v, rest) := by
  rw [full_at]; show pInv full ts = _
  obtain ⟨t, r, rfl, ht⟩ := hs
  unfold pInv
  split
  · rename_i e; cases e; exact absurd ht (by decide)
  · exact h

theorem lift_cmp {ts v rest} (h : full (.bin 0) ts = some (v, rest)) (hc : NoCont 4 rest) : full .cmp ts = some (v, rest) := by
  rw [full_at]; show pCmp full ts = _
  unfold pCmp
  rw [h, seq_some, cmpRest_stop hc]; rfl

theorem lift_bin {l ts v rest} (h : full (binNext l) ts = some (v, rest)) (hc : NoCont (5 + l) rest) :
    full (.bin l) ts = some (v, rest) := by
  rw [full_at]; show pBin full l ts = _
  unfold pBin
  rw [h, seq_some, binRest_stop hc]

theorem lift_factor {ts v rest} (h : full .power ts = some (v, rest)) (hs : StartsAt 12 ts) :
    full .factor ts = some (v, rest) := by
  rw [full_at]; show pFactor full ts = _
  obtain ⟨t, r, rfl, ht⟩ := hs
  have : unOp? (t :: r) = none := by
    unfold unOp?
    split
    · rename_i s r' e
      cases e
      cases hu : unSym s with
      | none => rfl
      | some k =>
        exfalso; unfold unSym at hu
        split at hu
        · exact absurd ht (by decide)
        · exact absurd ht (by decide)
        · exact absurd ht (by decide)
        · exact nomatch hu
    · rfl
  unfold pFactor
  rw [this]; exact h

theorem lift_power {ts v rest} (h : full .await ts = some (v, rest)) (hc : NoCont 12 rest) : full .power ts = some (v, rest) := by
  rw [full_at]; show pPower full ts = _
  unfold pPower
  rw [h, seq_some]
  unfold powerRest
  split
  · exact absurd (hc.at rfl) (by decide)
  · rfl

theorem lift_await {ts v rest} (h : full .primary ts = some (v, rest)) (hs : StartsAt 14 ts) :
    full .await ts = some (v, rest) := by
  rw [full_at]; show pAwait full ts = _
  obtain ⟨t, r, rfl, ht⟩ := hs
  unfold pAwait
  split
  · rename_i e; cases e; exact absurd ht (by decide)
  · exact h

theorem StartsAt.mono {K L ts} (h : StartsAt K ts) (hl : L ≤ K) : StartsAt L ts := by
  obtain ⟨t, r, e, ht⟩ := h
  exact ⟨t, r, e, Nat.le_trans hl ht⟩

/-- One level. -/
theorem lift_step {L ts v rest} (hL : L < 14) (h : full (ntAt (L + 1)) ts = some (v, rest)) (hs : StartsAt (L + 1) ts)
    (hc : NoCont L rest) : full (ntAt L) ts = some (v, rest) := by
  match L with
  | 0 => exact lift_expr h hs hc
  | 1 => exact lift_disj h hc
  | 2 => exact lift_conj h hc
  | 3 => exact lift_inv h hs
  | 4 => exact lift_cmp h hc
  | 5 => exact lift_bin (l := 0) h hc
  | 6 => exact lift_bin (l := 1) h hc
  | 7 => exact lift_bin (l := 2) h hc
  | 8 => exact lift_bin (l := 3) h hc
  | 9 => exact lift_bin (l := 4) h hc
  | 10 => exact lift_bin (l := 5) h hc
  | 11 => exact lift_factor h hs
  | 12 => exact lift_power h hc
  | 13 => exact lift_await h hs
  | n + 14 => omega

theorem lift {K L ts v rest} (hK : K ≤ 14) (hL : L ≤ K) (h : full (ntAt K) ts = some (v, rest)) (hs : StartsAt K ts)
    (hc : NoCont L rest) : full (ntAt L) ts = some (v, rest) := by
  induction K with
  | zero => rwa [Nat.le_zero.1 hL]
  | succ K ih =>
    by_cases e : L = K + 1
    · rw [e]; exact h
    · exact ih (by omega) (by omega) (lift_step (by omega) h hs (hc.mono (by omega))) (hs.mono (by omega))

end Mcpyrate.PyText
