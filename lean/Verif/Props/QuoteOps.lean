import Verif.Lemmas.QuoteOps
import Verif.Lemmas.QuoteNest
import Verif.Spec.QuoteOpsExample
/-
C35 nested quotes and unquotes match up.

Full statement: inside nested quasiquotes an unquote is interpolated exactly when its quote level drops to zero; inner
quotes and their unquotes are preserved literally; an unquote outside any quote is an error; the quote level is restored
after every exit.

Proved here in full: the error outside of quotes; the level is restored.  `C35_items_violated`, `C35_coverage_violated`:
inner quotes in block mode are not preserved literally.

`C35_nested_partial`, `C35_quote_partial`: interpolation exactly at level zero, and preservation of inner quotes and their
unquotes, for operators in expression mode (also for quotes inside of unquoted code, which are compiled where they are).
There may be bindings for other macros, as long as they are not invoked in the code (`OnlyOps`).  Missing: operators in
block mode (`C58_block_partial` has the outermost quote in block mode); uses of other macros that are bound globally, in
quoted code; debug hooks.
-/
namespace Mcpyrate
open Py Expander QuoteOps

variable {σ : Type}

/-- C35: the quote level is restored after every exit.  Whatever is expanded, in whichever mode, and whether the
expansion returns or raises: afterwards the stack of quote levels is as it was.  (Macros and hooks outside of the
quasiquote system can only change the level through an internal variable of that system; the hypotheses say that they
do not.) -/
theorem C35_level_restored (L : Lib σ) (E : Env (User σ)) (hL : HasOps L E)
    (hm : ∀ i, (∀ op, i ≠ L.id op) → ∀ a x, ((E.macros i).fn a).Ends levels x x)
    (hh : ∀ i t r n x, (E.hooks i t r n).Ends levels x x)
    (mode : Mode) (t : Val) (s s' : Expander.St (User σ)) (r : Except Exc Val) (h : Runs E mode t s r s') :
    levels s'.world = levels s.world := by
  obtain ⟨n, h⟩ := h
  exact visitMode_pres (keeps_rel levels_local).toStep (visit_keeps levels_local (keeps_levels hL hm hh) n) mode t s _ _ h

/-- C35: an unquote outside any quote is an error.  Any use of an unquote operator at level zero, in any of the
invocation types, raises SyntaxError, reported with the use site (except for `u()[…]`, which raises a plain
SyntaxError); and nothing has happened. -/
theorem C35_outside (L : Lib σ) (E : Env (User σ)) (hL : HasOps L E) (op : Op) (hop : op ≠ .q) (mode : Mode)
    (t c : Val) (k : String) (a : MArgs) (s s' : Expander.St (User σ)) (r : Except Exc Val) (hw : WellFormed t)
    (hi : Invokes E s.world t k (L.id op) a c) (h0 : value s.world = 0) (h : Runs E mode t s r s') :
    s'.world = s.world ∧ ((BadCall c ∧ r = .error (.py .syntaxError)) ∨
      (¬ BadCall c ∧ r = .error (.app (site E a k) (.py .syntaxError)))) := by
  obtain ⟨n, h⟩ := h
  exact mode_outside hL hop hw hi h0 h

/-- `u[x]`. -/
example : Runs QuoteOps.Ex.env .recursively (QuoteOps.Ex.op "u" (name "x")) (init (QuoteOps.Ex.world 0))
    (.error (.app ["a.py:1: x", "in expr macro invocation for 'u'"] (.py .syntaxError)))
    { init (QuoteOps.Ex.world 0) with log := [⟨"u", 1, ⟨.expr, name "x", some [], none, QuoteOps.Ex.op "u" (name "x")⟩, 0, true, some 1⟩] } :=
  ⟨10, rfl⟩

example : Invokes QuoteOps.Ex.env (QuoteOps.Ex.world 0) (QuoteOps.Ex.op "u" (name "x")) "u" (QuoteOps.Ex.lib.id .u)
    ⟨.expr, name "x", some [], none, QuoteOps.Ex.op "u" (name "x")⟩ (name "u") :=
  .expr rfl rfl (.plain rfl rfl) ⟨by decide, rfl, .inl rfl⟩ rfl

/-- The hypotheses of `C35_level_restored`. -/
example : HasOps QuoteOps.Ex.lib QuoteOps.Ex.env ∧
    (∀ i, (∀ op, i ≠ QuoteOps.Ex.lib.id op) → ∀ a x, ((QuoteOps.Ex.env.macros i).fn a).Ends (levels (σ := Unit)) x x) ∧
    (∀ i t r n x, (QuoteOps.Ex.env.hooks i t r n).Ends (levels (σ := Unit)) x x) := by
  refine ⟨QuoteOps.Ex.hasOps, ?_, fun _ _ _ _ _ => rfl⟩
  intro i hi a x
  rcases i with _ | _ | _ | _ | _ | _ | _ | i
  · exact absurd rfl (hi .q)
  · exact absurd rfl (hi .u)
  · exact absurd rfl (hi .n)
  · exact absurd rfl (hi .a)
  · exact absurd rfl (hi .s)
  · exact absurd rfl (hi .t)
  · exact absurd rfl (hi .h)
  · rfl

/-- C35: expansion at quote level `n`, with operators in expression mode.  When the compiler has removed its search marks
from the result, what is left is what the code stands for at level `n` (`Res`): quotes, and unquotes down to level 1, are
preserved literally; an unquote to level zero is replaced by the command to interpolate its argument; a quote at level
zero is replaced by the code that builds its contents; all else is copied. -/
theorem C35_nested_partial (L : Lib σ) (E : Env (User σ)) (hL : HasOps L E)
    (hm : ∀ i, (∀ op, i ≠ L.id op) → ∀ a x, ((E.macros i).fn a).Ends both x x)
    (hh : ∀ i t r n x, (E.hooks i t r n).Ends both x x)
    (t r : Val) (s s' : Expander.St (User σ)) (hs : s.hook = none) (hl : Dict.WF s.world.locals)
    (hg : Dict.WF s.world.globals) (hlo : LocalOps L s.world) (ho : OnlyOps L E s.world t) (hq : Quotable E s.world t)
    (h : Runs E .recursively t s (.ok r) s') :
    ∃ d, Markers.deleteMarkers isSearchDone r = .ok d ∧ Res L E s.world (value s.world) t d := by
  obtain ⟨m, h⟩ := h
  obtain ⟨s0, h1, rfl⟩ := bracket_some (m := visit E m t) (en := fun s => { s with recursive := true })
    (ex := fun s s' => { s' with recursive := s.recursive }) h
  obtain ⟨-, -, d, hd, -, hres, -, -⟩ := visit_stands (keeps_both hL hm hh) hL m (value s.world) t
    { s with recursive := true } _ r ho hq ⟨hs, rfl, rfl, fun _ => rfl, hl, hg, hlo⟩ h1
  exact ⟨d, hd, hres⟩

/-- C35: the outermost quote `q[x]`.  What its macro function returns is the code that the compiler generates for what
`x` stands for at level 1.  The argument is expanded with the quasiquote operators only. -/
theorem C35_quote_partial (L : Lib σ) (E : Env (User σ)) (hL : HasOps L E)
    (hm : ∀ i, (∀ op, i ≠ L.id op) → ∀ a x, ((E.macros i).fn a).Ends both x x)
    (hh : ∀ i t r n x, (E.hooks i t r n).Ends both x x)
    (a : MArgs) (ret : Ret) (s s' : Expander.St (User σ)) (n : Nat) (w : W σ)
    (hw : w = { s.world with locals := quoteBindings L s.world }) (hg : Dict.WF s.world.globals)
    (ho : OnlyOps L E w a.tree) (ha : a.synt = .expr) (h0 : value s.world = 0) (hq : Quotable E w a.tree)
    (h : run (visit E n) ((E.macros (L.id .q)).fn a) s = some (.ok ret, s')) :
    ∃ d c, ret = .val c ∧ Res L E w 1 a.tree d ∧ Compiled L E.filename s.world d c := by
  subst hw
  have hk := keeps_both hL hm hh
  rw [hL .q] at h
  obtain ⟨x', v, s2, hv, rfl, hc⟩ := quote_step hk (.inl ha) h
  rcases hc with ⟨hpos, -⟩ | ⟨-, w, w', hb, hc⟩
  · omega
  · obtain ⟨-, -, d, hd, -, hres, -, -⟩ := visit_stands hk hL n 1 a.tree (raised L s) s2 x' ho hq
      ⟨rfl, rfl, by show value s.world + 1 = 1; rw [h0], fun k => rfl, quoteBindings_WF L hg, hg, quoteBindings_ops L hg⟩ hv
    obtain ⟨d', hd', hcomp⟩ := compile_compiled ha (bindings_isbound hb) hc
    rw [hd] at hd'
    cases hd'
    exact ⟨d, v, rfl, hres, hcomp⟩

/-- The hypotheses about other macros and hooks. -/
example : (∀ i, (∀ op, i ≠ QuoteOps.Ex.lib.id op) → ∀ a x, ((QuoteOps.Ex.env.macros i).fn a).Ends (both (σ := Unit)) x x) ∧
    (∀ i t r n x, (QuoteOps.Ex.env.hooks i t r n).Ends (both (σ := Unit)) x x) := by
  refine ⟨?_, fun _ _ _ _ _ => rfl⟩
  intro i hi a x
  rcases i with _ | _ | _ | _ | _ | _ | _ | i
  · exact absurd rfl (hi .q)
  · exact absurd rfl (hi .u)
  · exact absurd rfl (hi .n)
  · exact absurd rfl (hi .a)
  · exact absurd rfl (hi .s)
  · exact absurd rfl (hi .t)
  · exact absurd rfl (hi .h)
  · rfl

/-- `q[u[u[x]]]` at level 1, i.e. inside of another quote: `q[…]` stays, the outer unquote stays, the inner one is
interpolated. -/
example : LocalOps QuoteOps.Ex.lib (QuoteOps.Ex.inner 1) ∧ OnlyOps QuoteOps.Ex.lib QuoteOps.Ex.env (QuoteOps.Ex.inner 1) QuoteOps.Ex.nested ∧
    Quotable QuoteOps.Ex.env (QuoteOps.Ex.inner 1) QuoteOps.Ex.nested ∧
    ((visitAs QuoteOps.Ex.env 20 .recursively QuoteOps.Ex.nested (init (QuoteOps.Ex.inner 1))).map
      fun x => x.1.toOption.map (Markers.deleteMarkers isSearchDone)) =
      some (some (.ok (QuoteOps.Ex.op "q" (QuoteOps.Ex.op "u" (marker "Unquote" [(.body, name "x")]))))) :=
  ⟨QuoteOps.Ex.localOps 1, QuoteOps.Ex.onlyOps 1 _, QuoteOps.Ex.quotable 1, by decide +kernel⟩

/-- The same, with a macro `m` among the global bindings. -/
example : LocalOps QuoteOps.Ex.lib (QuoteOps.Ex.innerGlobal 1) ∧
    isbound (QuoteOps.Ex.innerGlobal 1) "m" = some 7 ∧ (∀ op, QuoteOps.Ex.lib.id op ≠ 7) ∧
    OnlyOps QuoteOps.Ex.lib QuoteOps.Ex.env (QuoteOps.Ex.innerGlobal 1) QuoteOps.Ex.nested ∧
    Quotable QuoteOps.Ex.env (QuoteOps.Ex.innerGlobal 1) QuoteOps.Ex.nested ∧
    ((visitAs QuoteOps.Ex.env 20 .recursively QuoteOps.Ex.nested (init (QuoteOps.Ex.innerGlobal 1))).map
      fun x => x.1.toOption.map (Markers.deleteMarkers isSearchDone)) =
      some (some (.ok (QuoteOps.Ex.op "q" (QuoteOps.Ex.op "u" (marker "Unquote" [(.body, name "x")]))))) :=
  ⟨QuoteOps.Ex.localOps_global 1, rfl, fun op => by cases op <;> decide, QuoteOps.Ex.onlyOps_global 1 (by decide +kernel),
    QuoteOps.Ex.quotable_of rfl (by decide +kernel), by decide +kernel⟩

/-- `q[q[u[u[x]]]]` at level 0. -/
example : OnlyOps QuoteOps.Ex.lib QuoteOps.Ex.env (QuoteOps.Ex.inner 0) QuoteOps.Ex.nested ∧
    Quotable QuoteOps.Ex.env (QuoteOps.Ex.inner 0) QuoteOps.Ex.nested ∧
    ((run (visit QuoteOps.Ex.env 20) ((QuoteOps.Ex.env.macros (QuoteOps.Ex.lib.id .q)).fn
      ⟨.expr, QuoteOps.Ex.nested, some [], none, QuoteOps.Ex.op "q" QuoteOps.Ex.nested⟩) (init (QuoteOps.Ex.world 0))).map
      fun x => x.1.toOption.isSome) = some true :=
  ⟨QuoteOps.Ex.onlyOps 0 _, QuoteOps.Ex.quotable 0, by decide +kernel⟩

/-- `u[q[u[x]]]` at level 1: the inner quote is at level 0, and is compiled. -/
example : Quotable QuoteOps.Ex.env (QuoteOps.Ex.inner 1) (QuoteOps.Ex.op "u" (QuoteOps.Ex.op "q" (QuoteOps.Ex.op "u" (name "x")))) ∧
    ((visitAs QuoteOps.Ex.env 20 .recursively (QuoteOps.Ex.op "u" (QuoteOps.Ex.op "q" (QuoteOps.Ex.op "u" (name "x"))))
      (init (QuoteOps.Ex.inner 1))).map fun x => x.1.toOption.map fun r => (r.get? .body).map fun b => b.isK .Call) =
      some (some (some true)) :=
  ⟨QuoteOps.Ex.quotable_of rfl (by decide +kernel), by decide +kernel⟩

/-- C35 does not hold in block mode: inside of a quote, `with q as b, foo as c: pass` becomes
`with q as b, foo as c: (with foo as c: pass)`. -/
theorem C35_items_violated : ∃ (L : Lib Unit) (E : Env (User Unit)) (w : W Unit) (s' : Expander.St (User Unit)),
    HasOps L E ∧ value w = 1 ∧
    Runs E .recursively (QuoteOps.Ex.withStmt {} [(name "q", "b"), (name "foo", "c")] [Expander.Ex.pass]) (init w)
      (.ok (searchDone (QuoteOps.Ex.withStmt {} [(name "q", "b"), (name "foo", "c")]
        [QuoteOps.Ex.withStmt {} [(name "foo", "c")] [Expander.Ex.pass]]))) s' := by
  obtain ⟨s', h⟩ := Runs.of_eval (E := QuoteOps.Ex.env) (mode := .recursively) (n := 20)
    (t := QuoteOps.Ex.withStmt {} [(name "q", "b"), (name "foo", "c")] [Expander.Ex.pass])
    (s := init (QuoteOps.Ex.world 1))
    (r := .ok (searchDone (QuoteOps.Ex.withStmt {} [(name "q", "b"), (name "foo", "c")]
        [QuoteOps.Ex.withStmt {} [(name "foo", "c")] [Expander.Ex.pass]]))) (by decide +kernel)
  exact ⟨QuoteOps.Ex.lib, QuoteOps.Ex.env, QuoteOps.Ex.world 1, s', QuoteOps.Ex.hasOps, rfl, h⟩

/-- C35 does not hold in block mode: inside of a quote, `with q as b: pass` gets another statement before it. -/
theorem C35_coverage_violated : ∃ (L : Lib Unit) (E : Env (User Unit)) (w : W Unit) (s' : Expander.St (User Unit))
    (l : Loc) (extra r : Val), HasOps L E ∧ value w = 1 ∧ isDone extra = true ∧
    Runs E .recursively (QuoteOps.Ex.withStmt l [(name "q", "b")] [Expander.Ex.pass]) (init w)
      (.ok (.list [extra, r])) s' :=
  ⟨QuoteOps.Ex.lib, QuoteOps.Ex.env, QuoteOps.Ex.world 1, _, { lineno := .int 3, colOffset := .int 0, endLineno := .int 4, endColOffset := .int 8 }, _, _,
    QuoteOps.Ex.hasOps, rfl, rfl, ⟨20, rfl⟩⟩

end Mcpyrate
