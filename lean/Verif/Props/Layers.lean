import Verif.Lemmas.LayersStep
import Verif.Props.StepExpansion
import Verif.Props.Fixpoint
/-
C57. Expanding layer by layer gives the same as expanding at once.

Full statement: Expanding a tree once, and then expanding the result recursively, gives the same tree as expanding it
recursively; so does expanding it once, repeatedly, until no invocations are left; so does stepping through the expansion.
If one of these finishes, so do the others.

Proved for macros that return without using the expander (`TidyMacros`; this excludes macros that call the expander, or look
at its bindings or at other state), that return statements only where statements can be, and for trees where this is the case
too (`Tidy`); and provided that no invocation in the place where the name of a macro is expected expands to the name of a
macro (`Settled`): `C57_layer_partial`, `C57_layers_partial`.  Stepping reports an exception if the collector does, see C24;
otherwise it gives the same (`C57_stepping_partial`, `C57_stepping_finishes_partial`, for the summary reports).

Without the last proviso it is false (`C57_violated`): if `k[a]` expands to the name of the macro `m`, then `k[a][b]` gives
`m[b]` when expanded recursively, but `m` is invoked when the layers are expanded separately.  For an empty list of
statements, stepping gives `[]` and expanding gives `None` (`C57_empty_violated`).
-/
namespace Mcpyrate
open Py Expander Expander.Layers

section
variable {υ : Type}

/-- C57: one layer first, then everything. -/
theorem C57_layer_partial (E : Env υ) (t t1 r : Val) (s s1 : Expander.St υ) (ht : t.isTree = true) (hty : Tidy t)
    (hh : s.hook = none) (hset : Settled E s.world t) (h : Runs E .once t s (.ok (done t1)) s1)
    (hm : TidyMacros E (fresh s s1)) :
    (∃ s', Runs E .recursively t s (.ok r) s' ∧ TidyMacros E (fresh s s')) ↔
      ∃ s', Runs E .recursively t1 s1 (.ok r) s' ∧ TidyMacros E (fresh s1 s') := by
  obtain ⟨hw, n, h1⟩ := once_up (.inr ht) hty hh h hm
  obtain ⟨hT1, ht1⟩ := once_next (.inr ht) hty hset h1
  have hh1 := (runs_frame h).hook.trans hh
  constructor
  · rintro ⟨s', h2, h3⟩
    obtain ⟨-, D, h4⟩ := rec_up (.inr ht) hty hh h2 h3
    obtain ⟨s2, h5, -, h6⟩ := rec_runs (s := s1) hT1 ht1 hh1
      (by rw [hw]; exact (layer D n t t1 (.inr ht) hty hset h1 r).mpr (rd_succ h4))
    exact ⟨s2, h5, h6⟩
  · rintro ⟨s', h2, h3⟩
    obtain ⟨-, D, h4⟩ := rec_up hT1 ht1 hh1 h2 h3
    rw [hw] at h4
    obtain ⟨s2, h5, -, h6⟩ := rec_runs (.inr ht) hty hh ((layer D n t t1 (.inr ht) hty hset h1 r).mp h4)
    exact ⟨s2, h5, h6⟩

/-- C57: layer by layer, until there are no invocations left. -/
theorem C57_layers_partial (E : Env υ) (t r : Val) (s : Expander.St υ) (ht : t.isTree = true) (hty : Tidy t)
    (hh : s.hook = none) (hset : ∀ u, Later E s t u → Settled E s.world u) (hr : r ≠ .list []) :
    (∃ s', Runs E .recursively t s (.ok r) s' ∧ TidyMacros E (fresh s s')) ↔
      ∃ s', Layered E t s r s' ∧ TidyMacros E (fresh s s') := by
  constructor
  · rintro ⟨s', h1, h2⟩
    obtain ⟨-, D, h3⟩ := rec_up (.inr ht) hty hh h1 h2
    exact layered_dn D h3 (.inr ht) hty hh hset
  · rintro ⟨s', h1, h2⟩
    obtain ⟨D, h3⟩ := layered_up h1 (.inr ht) hty hh hset h2 hr
    obtain ⟨s2, h5, -, h6⟩ := rec_runs (.inr ht) hty hh h3
    exact ⟨s2, h5, h6⟩
end

section
variable {σ : Type}
open StepExpansion Collector

/-- C57: what `step_expansion` returns is what expanding recursively gives. -/
theorem C57_stepping_partial (E : Env (User σ)) (hook : Nat → Nat) (m f : Nat) (a : MArgs) (args : List Val) (dump : Bool)
    (s s' : Expander.St (User σ)) (r : Val) (hs : a.synt = .expr ∨ a.synt = .block) (ha : a.args = some args)
    (hp : parseArgs args (false, false) = .ok (dump, false)) (ht : a.tree.isTree = true) (hty : Tidy a.tree)
    (hh : s.hook = none) (hset : ∀ u, Later E s a.tree u → Settled E s.world u)
    (h : run (visit E f) (stepExpansion E hook m a) s = some (.ok (.val r), s')) (hm : TidyMacros E (fresh s s'))
    (hsh : Shaped r) (hne : r ≠ .list []) :
    ∃ s'', Runs E .recursively a.tree s (.ok r) s'' ∧ TidyMacros E (fresh s s'') := by
  obtain ⟨ts, o, s1, h1, h2⟩ := C50_steps E hook m f a args dump false s s' _ hs ha hp ht h
  cases o with
  | error e => cases h2
  | ok p =>
    obtain ⟨t, n⟩ := p
    cases h2
    obtain ⟨D, h3⟩ := stepping_up h1 rfl (s0 := s) rfl hh hh (.inr ht) hty hset hm hsh hne
    obtain ⟨s2, h5, -, h6⟩ := rec_runs (.inr ht) hty hh h3
    exact ⟨s2, h5, h6⟩

/-- C57: if expanding recursively finishes, so does `step_expansion`, with this result. -/
theorem C57_stepping_finishes_partial (E : Env (User σ)) (hook : Nat → Nat) (a : MArgs) (args : List Val) (dump : Bool)
    (s s' : Expander.St (User σ)) (r : Val) (hs : a.synt = .expr ∨ a.synt = .block) (ha : a.args = some args)
    (hp : parseArgs args (false, false) = .ok (dump, false)) (ht : a.tree.isTree = true) (hty : Tidy a.tree)
    (hh : s.hook = none) (hset : ∀ u, Later E s a.tree u → Steppable E s.world dump u)
    (h : Runs E .recursively a.tree s (.ok r) s') (hm : TidyMacros E (fresh s s')) :
    ∃ s'' f0 m0, TidyMacros E (fresh s s'') ∧
      ∀ f m, f0 ≤ f → m0 ≤ m → run (visit E f) (stepExpansion E hook m a) s = some (.ok (.val r), s'') := by
  obtain ⟨-, D, h1⟩ := rec_up (.inr ht) hty hh h hm
  obtain ⟨ts, n, s1, h2, h3⟩ := stepping_dn (level := levelOf s) D (n := 0) (s := opened hook dump false a.tree s) (s0 := s) h1
    rfl hh hh (.inr ht) hty hset
  obtain ⟨f0, m0, h4⟩ := C50_finishes E hook a args dump false s s1 ts _ hs ha hp ht h2
  exact ⟨(closed dump s (.ok (r, n)) s1).2, f0, m0, h3, h4⟩
end

/-! ### Where it fails -/

namespace Layers
open Expander.Ex

/-- `k[a][b]` -/
def tower : Val := sub (sub (name "k") (name "a")) (name "b")

end Layers
open Layers

/-- C57 fails: `k[a][b]`, where `k[a]` expands to the name of the macro `m`. -/
theorem C57_violated :
    ∃ t1 s1 s2 s3, Runs Fixpoint.env .once tower (init Fixpoint.world) (.ok (done t1)) s1 ∧
      Runs Fixpoint.env .recursively t1 s1 (.ok (name "b")) s2 ∧
      Runs Fixpoint.env .recursively tower (init Fixpoint.world) (.ok (Ex.sub (name "m") (name "b"))) s3 :=
  ⟨_, _, _, _, ⟨10, rfl⟩, ⟨10, rfl⟩, ⟨10, rfl⟩⟩

open StepExpansion StepExpansion.Ex in
/-- C57 fails for an empty list of statements: `step_expansion` gives it back, expanding gives `None`. -/
theorem C57_empty_violated :
    Runs env .recursively (.list []) start (.ok .none) start ∧
      ∃ s', run (visit env 10) (stepExpansion env id 10 (blockArgs [] [])) start = some (.ok (.val (.list [])), s') :=
  ⟨⟨10, rfl⟩, _, rfl⟩

/-! ### Concrete cases -/

namespace Layers
open Expander.Ex

/-- A tidy expression. -/
def good (v : Val) : Bool :=
  v.isAST && !isMacroStmt v && (preorder v).all fun u => fieldsOk u && nestingOk u && stmtsInBlocks u

theorem good_expansion {y : Syn} {v : Val} (h : good v = true) : TidyExpansion y v := by
  simp only [good, Bool.and_eq_true, Bool.not_eq_true'] at h
  exact ⟨tidy_check h.2, fun _ => .inr h.1⟩

/-- Uses of the first two macros of the example. -/
def fine (e : App) : Bool :=
  match e.fn with
  | 0 => good e.margs.tree
  | 1 => good (sub (name "m") e.margs.tree)
  | _ => false

theorem fine_macros {υ : Type} {E : Env υ} (h0 : ∀ a, (E.macros 0).fn a = .ret (.val a.tree))
    (h1 : ∀ a, (E.macros 1).fn a = .ret (.val (sub (name "m") a.tree))) {log : List App} (h : log.all fine = true) :
    TidyMacros E log := by
  intro e he
  have hf := List.all_eq_true.mp h e he
  have hch : ∀ {v v' : Val}, v.isAST = true → checkRet (.val v) = some v' → v' = v := by
    intro v v' hv hc
    cases v with
    | node => cases hc; rfl
    | const | list => cases hv
  have hast : ∀ {v}, good v = true → v.isAST = true := by
    intro v hv
    simp only [good, Bool.and_eq_true] at hv
    exact hv.1.1
  unfold fine at hf
  split at hf
  · rename_i hi
    rw [hi]
    refine ⟨⟨_, h0 _⟩, fun v ⟨r, hr, hc⟩ => ?_⟩
    rw [h0] at hr; cases hr
    rw [hch (hast hf) hc]; exact good_expansion hf
  · rename_i hi
    rw [hi]
    refine ⟨⟨_, h1 _⟩, fun v ⟨r, hr, hc⟩ => ?_⟩
    rw [h1] at hr; cases hr
    rw [hch (hast hf) hc]; exact good_expansion hf
  · cases hf

/-- In all subscripts `k[…]` and calls, `k` is one of these names; no `with`, no definitions. -/
def plainHeads (ks : List String) (u : Val) : Bool :=
  !(u.isK .withitem || u.isK .FunctionDef || u.isK .ClassDef) &&
    [F.value, F.func].all fun f => match u.get? f with
      | some (.node (.py .Name) _ fs) => ks.any fun k => fs.lookup .id = some (.str k)
      | some _ => false
      | none => true

theorem plain_settled {υ : Type} {E : Env υ} {w : World υ} (ks : List String)
    (hk : ∀ k ∈ ks, ∀ i, isbound w k = some i → (E.macros i).isName = false) {t : Val} (h : (preorder t).all (plainHeads ks) = true) :
    Settled E w t := by
  intro u c hu hc k i a d hi v hv hn
  have hua : u.isAST = true := by
    cases hc with
    | subscript hk => exact isK_isAST hk
    | call hk => exact isK_isAST hk
    | item hk => exact isK_isAST hk
    | decorator hk => rcases hk with hk | hk <;> exact isK_isAST hk
  have hp := List.all_eq_true.mp h u (mem_preorder.mpr ⟨hu.reach, hua⟩)
  simp only [plainHeads, Bool.and_eq_true, Bool.not_eq_true', Bool.or_eq_false_iff, List.all_cons, List.all_nil, and_true] at hp
  obtain ⟨⟨⟨h1, h2⟩, h3⟩, h4, h5⟩ := hp
  have key : ∀ {f : F}, u.get? f = some c → (match u.get? f with
      | some (.node (.py .Name) _ fs) => ks.any fun k => fs.lookup .id = some (.str k)
      | some _ => false
      | none => true) = true → False := by
    intro f hf hm
    rw [hf] at hm
    split at hm
    · rename_i l fs heq
      cases heq
      obtain ⟨k', hk1, hk2⟩ := List.any_eq_true.mp hm
      have hk2 : fs.lookup .id = some (.str k') := by simpa using hk2
      cases hi with
      | expr h => cases h
      | block h => cases h
      | decorator h => rcases h with h | h <;> cases h
      | name _ g1 _ g2 g3 =>
        have g1 : fs.lookup .id = some (.str k) := g1
        rw [hk2] at g1; cases g1
        rw [hk _ hk1 _ g2] at g3; cases g3
    · cases hm
    · rename_i heq; cases heq
  cases hc with
  | subscript _ hf => exact key hf h4
  | call _ hf => exact key hf h5
  | item hk => rw [h1] at hk; cases hk
  | decorator hk => rcases hk with hk | hk
                    · rw [h2] at hk; cases hk
                    · rw [h3] at hk; cases hk

/-- Stepping through the trees. -/
theorem later_step {υ : Type} {E : Env υ} {s s1 : Expander.St υ} {t t1 u : Val} (h : Runs E .once t s (.ok (done t1)) s1)
    (hl : Later E s t u) : u = t ∨ Later E s1 t1 u := by
  cases hl with
  | refl => exact .inl rfl
  | step h' hl =>
    obtain ⟨h1, h2⟩ := h.det h'
    cases h1
    subst h2
    exact .inr hl

theorem later_last {υ : Type} {E : Env υ} {s : Expander.St υ} {t u : Val} (h : Runs E .once t s (.ok (done t)) s)
    (hl : Later E s t u) : u = t := by
  generalize hs : s = s0 at hl
  generalize ht : t = t0 at hl
  induction hl with
  | refl => rfl
  | step h' hl ih =>
    subst hs ht
    obtain ⟨h1, h2⟩ := h.det h'
    cases h1
    subst h2
    exact ih rfl rfl

end Layers

section
open Expander.Ex

/-- `r[m[x]]` -/
private def t0 : Val := sub (name "r") (sub (name "m") (name "x"))

private theorem names : ∀ k ∈ ["r", "m"], ∀ i, isbound Ex.world k = some i → (Ex.env.macros i).isName = false := by
  intro k hk i hi
  rcases List.mem_cons.mp hk with rfl | hk
  · cases hi; rfl
  · rcases List.mem_singleton.mp hk with rfl
    cases hi; rfl

private theorem fine' {log : List App} (h : log.all fine = true) : TidyMacros Ex.env log := fine_macros (fun _ => rfl) (fun _ => rfl) h

/-- `r[m[x]]` expands to `m[m[x]]`; the rest expands to `x`. -/
example : ∃ s', Runs Ex.env .recursively t0 Ex.start (.ok (name "x")) s' ∧ TidyMacros Ex.env (fresh Ex.start s') :=
  (C57_layer_partial Ex.env t0 (sub (name "m") (sub (name "m") (name "x"))) (name "x") Ex.start _ rfl (tidy_check (by decide +kernel)) rfl
    (plain_settled ["r", "m"] names (by decide +kernel)) ⟨10, rfl⟩ (fine' (by decide +kernel))).mpr
    ⟨_, ⟨10, rfl⟩, fine' (by decide +kernel)⟩

private theorem later {u : Val} (h : Later Ex.env Ex.start t0 u) :
    u ∈ [t0, sub (name "m") (sub (name "m") (name "x")), sub (name "m") (name "x"), name "x"] := by
  rcases later_step (t1 := sub (name "m") (sub (name "m") (name "x"))) ⟨10, rfl⟩ h with rfl | h
  · simp
  rcases later_step (t1 := sub (name "m") (name "x")) ⟨10, rfl⟩ h with rfl | h
  · simp
  rcases later_step (t1 := name "x") ⟨10, rfl⟩ h with rfl | h
  · simp
  rw [later_last ⟨10, rfl⟩ h]
  simp

private theorem settled {u : Val} (h : Later Ex.env Ex.start t0 u) : Settled Ex.env Ex.world u := by
  refine plain_settled ["r", "m"] names ?_
  have := later h
  simp only [List.mem_cons, List.not_mem_nil, or_false] at this
  rcases this with rfl | rfl | rfl | rfl <;> decide +kernel

/-- In three layers. -/
example : ∃ s', Layered Ex.env t0 Ex.start (name "x") s' ∧ TidyMacros Ex.env (fresh Ex.start s') :=
  (C57_layers_partial Ex.env t0 (name "x") Ex.start rfl (tidy_check (by decide +kernel)) rfl (fun _ h => settled h) (by simp [name, mk])).mp
    ⟨_, ⟨10, rfl⟩, fine' (by decide +kernel)⟩
end

namespace Layers
open StepExpansion StepExpansion.Ex Collector
open Expander.Ex (sub)

/-- `r[x]` -/
def t1 : Val := sub (name "r") (name "x")

theorem names' : ∀ k ∈ ["r", "m"], ∀ i, isbound StepExpansion.Ex.world k = some i →
    (StepExpansion.Ex.env.macros i).isName = false := by
  intro k hk i hi
  rcases List.mem_cons.mp hk with rfl | hk
  · cases hi; rfl
  · rcases List.mem_singleton.mp hk with rfl
    cases hi; rfl

theorem fine'' {log : List App} (h : log.all fine = true) : TidyMacros StepExpansion.Ex.env log :=
  fine_macros (fun _ => rfl) (fun _ => rfl) h

theorem later' {u : Val} (h : Later env start t1 u) : u ∈ [t1, sub (name "m") (name "x"), name "x"] := by
  rcases later_step (t1 := sub (name "m") (name "x")) ⟨10, rfl⟩ h with rfl | h
  · simp
  rcases later_step (t1 := name "x") ⟨10, rfl⟩ h with rfl | h
  · simp
  rw [later_last ⟨10, rfl⟩ h]
  simp

theorem steppable {u : Val} (h : Later env start t1 u) : Steppable env StepExpansion.Ex.world true u := by
  have := later' h
  simp only [List.mem_cons, List.not_mem_nil, or_false] at this
  rcases this with rfl | rfl | rfl
  · exact ⟨plain_settled ["r", "m"] names' (by decide +kernel), ⟨_, 10, rfl⟩, shaped_of (by decide +kernel), rfl, by simp [t1, sub, mk]⟩
  · exact ⟨plain_settled ["r", "m"] names' (by decide +kernel), ⟨_, 10, rfl⟩, shaped_of (by decide +kernel), rfl, by simp [sub, mk]⟩
  · exact ⟨plain_settled ["r", "m"] names' (by decide +kernel), ⟨_, 10, rfl⟩, shaped_of (by decide +kernel), rfl, by simp [name, mk]⟩

/-- Stepping through `r[x]` gives `x`, so that is the result of expanding it. -/
example : ∃ s', Runs env .recursively t1 start (.ok (name "x")) s' ∧ TidyMacros env (fresh start s') :=
  C57_stepping_partial env id 10 10 (exprArgs [str "dump"] t1) _ true start _ _ (.inl rfl) rfl rfl rfl (tidy_check (by decide +kernel)) rfl
    (fun _ h => (steppable h).settled) rfl (fine'' (by decide +kernel)) (shaped_of (by decide +kernel)) (by simp [name, mk])

/-- Expanding `r[x]` gives `x`, so does stepping. -/
example : ∃ s' f m, run (visit env f) (stepExpansion env id m (exprArgs [str "dump"] t1)) start = some (.ok (.val (name "x")), s') := by
  obtain ⟨s', f0, m0, -, h⟩ := C57_stepping_finishes_partial env id (exprArgs [str "dump"] t1) _ true start _ (name "x") (.inl rfl) rfl
    rfl rfl (tidy_check (by decide +kernel)) rfl (fun _ h => steppable h) ⟨10, rfl⟩ (fine'' (by decide +kernel))
  exact ⟨s', f0, m0, h f0 m0 (Nat.le_refl _) (Nat.le_refl _)⟩
end Layers

end Mcpyrate
