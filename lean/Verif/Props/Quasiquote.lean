import Verif.Lemmas.QuasiquoteMacro
import Verif.Lemmas.QuoteLeftover
import Verif.Props.QuoteOps
import Verif.Spec.QuasiquoteExample
/-
C58 quasiquoted code evaluates to the tree with its unquotes filled in.

Full statement: `q[tree]`, when it is evaluated, gives the syntax tree of `tree`, where `u[e]` is replaced by an expression
for the value of `e`, `n[e]` by the expression in the string `e`, `a[e]` by the syntax tree `e` or the items of the list
`e`, `s[e]` and `t[e]` by a list or tuple display of the items of `e`, `h[e]` by a reference to the value of `e`; `with q as
name:` assigns the list of statements to `name`.  The operators used in any other way raise SyntaxError.

`C58_quote_partial`, `C58_inner_partial`, `C58_block_partial`, `C58_astBlock_partial`, `C58_astBlock_refused`,
`C58_captureName`, `C58_wrong_use`, `C58_noCommands`, `C58_refused`, `C58_succeeds_partial`, `C58_block_succeeds_partial`; with captured macros, `C58_macros_partial`, `C58_inner_macros_partial`,
`C58_block_macros_partial`.  `with a:` inside of a quoted block does more than that (`C58_coverage_violated`).  Missing: `with
a:` in deeper quotes; complex numbers, which are an error (C32); uses of other macros that are bound globally; debug hooks; what
`u[e]` gives for values with markers or malformed trees in them, and for sets and dicts that Python does not rebuild from
their items (`Means.other`), and whether evaluation succeeds for these and for quotes that capture macros.
-/
namespace Mcpyrate
open Py Expander QuoteOps Quotes

variable {σ : Type}

/-- C58: expression mode.  What `q[x]` expands to builds, when it is evaluated, what `x` stands for at level 1 (`Res`: the
unquotes of that level are commands, inner quotes stay), with the commands carried out (`Means`) and the items of list
unquotes put in their places (`filled`; the trees that are put in have no lists directly in lists). -/
theorem C58_quote_partial (L : Lib σ) (E : Env (User σ)) (hL : HasOps L E) (hH : Imported L.H)
    (hm : ∀ i, (∀ op, i ≠ L.id op) → ∀ a x, ((E.macros i).fn a).Ends both x x)
    (hh : ∀ i t r n x, (E.hooks i t r n).Ends both x x)
    (a : MArgs) (ret : Ret) (s s' : Expander.St (User σ)) (n : Nat) (w : W σ)
    (hw : w = { s.world with locals := quoteBindings L s.world }) (hg : Dict.WF s.world.globals)
    (ho : OnlyOps L E w a.tree) (ha : a.synt = .expr) (h0 : value s.world = 0) (hq : Quotable E w a.tree)
    (hs : Source a.tree) (hc : Captures L E w s.world a.tree)
    (h : run (visit E n) ((E.macros (L.id .q)).fn a) s = some (.ok ret, s')) :
    ∃ c d, ret = .val c ∧ Res L E w 1 a.tree d ∧ ∀ st r st', Evaluates L.H (.ofVal c) st r st' →
      ∃ m, Means L.H (.ofVal d) st m st' ∧ (flat m = true → filled m = some r) := by
  obtain ⟨d, c, h1, h2, h3⟩ := C35_quote_partial L E hL hm hh a ret s s' n w hw hg ho ha h0 hq h
  exact ⟨c, d, h1, h2, fun st r st' he => compiled_means hH h3 (res_template h2 (by decide) hs hc) he⟩

/-- `q[[y, u[three], a[lst], h[value]]]`, with the values that `Quotes.Ex.host` gives these: `[y, 3, a, b, …]`. -/
example : HasOps QuoteOps.Ex.lib QuoteOps.Ex.env ∧ Imported QuoteOps.Ex.lib.H ∧ Dict.WF (QuoteOps.Ex.world 0).globals ∧
    OnlyOps QuoteOps.Ex.lib QuoteOps.Ex.env (QuoteOps.Ex.inner 0) QuoteOps.Ex.display ∧
    Quotable QuoteOps.Ex.env (QuoteOps.Ex.inner 0) QuoteOps.Ex.display ∧ Source QuoteOps.Ex.display ∧
    Captures QuoteOps.Ex.lib QuoteOps.Ex.env (QuoteOps.Ex.inner 0) (QuoteOps.Ex.world 0) QuoteOps.Ex.display ∧
    (QuoteOps.Ex.valueOf (run (visit QuoteOps.Ex.env 20) ((QuoteOps.Ex.env.macros (QuoteOps.Ex.lib.id .q)).fn
      ⟨.expr, QuoteOps.Ex.display, some [], none, QuoteOps.Ex.op "q" QuoteOps.Ex.display⟩) (init (QuoteOps.Ex.world 0)))).map
      (fun r => r.toOption.map fun o => (o.get? .elts).map fun
        | .list xs => xs.take 4
        | _ => []) =
      some (some (some [Quotes.Ex.name "y", Quotes.constantNode (.int 3), Quotes.Ex.name "a", Quotes.Ex.name "b"])) :=
  ⟨QuoteOps.Ex.hasOps, rfl, by unfold Dict.WF; decide, QuoteOps.Ex.onlyOps 0 _, QuoteOps.Ex.quotable_display 0,
    QuoteOps.Ex.source_display, QuoteOps.Ex.captures_display 0, by decide +kernel⟩

/-- `q[a[q[u[three]]]]`: a quote inside of unquoted code.  The value of `q[u[three]]` is the expression `3`. -/
example : Quotable QuoteOps.Ex.env (QuoteOps.Ex.inner 0) QuoteOps.Ex.requoted ∧ Source QuoteOps.Ex.requoted ∧
    Captures QuoteOps.Ex.lib QuoteOps.Ex.env (QuoteOps.Ex.inner 0) (QuoteOps.Ex.world 0) QuoteOps.Ex.requoted ∧
    (QuoteOps.Ex.valueOf (run (visit QuoteOps.Ex.env 20) ((QuoteOps.Ex.env.macros (QuoteOps.Ex.lib.id .q)).fn
      ⟨.expr, QuoteOps.Ex.requoted, some [], none, QuoteOps.Ex.op "q" QuoteOps.Ex.requoted⟩) (init (QuoteOps.Ex.world 0)))).map
      (fun r => r.toOption) = some (some (Quotes.constantNode (.int 3))) :=
  ⟨QuoteOps.Ex.quotable_requoted 0, QuoteOps.Ex.source_requoted, QuoteOps.Ex.captures_requoted 0, by decide +kernel⟩

/-- C58: quotes inside of unquoted code.  By `C58_quote_partial` and the definition of `Res`, these are replaced by code
that builds their contents (`Res.quote`).  That code has the same meaning as what an outermost quote expands to. -/
theorem C58_inner_partial (L : Lib σ) (E : Env (User σ)) (hH : Imported L.H) (w : W σ) (x d c : Val) (hs : Source x)
    (hc : Captures L E w w x) (hd : Res L E w 1 x d) (hC : Compiled L E.filename w d c) :
    ∀ st r st', Evaluates L.H (.ofVal c) st r st' →
      ∃ m, Means L.H (.ofVal d) st m st' ∧ (flat m = true → filled m = some r) :=
  fun _ _ _ he => compiled_means hH hC (res_template hd (by decide) hs hc) he

/-- `u[three]`, as in `q[a[q[u[three]]]]`. -/
example : Source (QuoteOps.Ex.op "u" (Py.name "three")) ∧
    Captures QuoteOps.Ex.lib QuoteOps.Ex.env (QuoteOps.Ex.inner 0) (QuoteOps.Ex.inner 0)
      (QuoteOps.Ex.op "u" (Py.name "three")) :=
  ⟨⟨by decide +kernel, by decide +kernel, by decide +kernel⟩, QuoteOps.Ex.captures_of (by decide +kernel)⟩

/-- C58: `u[e]`, where the value of `e` contains an object that cannot be written as an expression.  The code for it raises
an error, right after `e` has been evaluated. -/
theorem C58_refused (H : Host σ) (hH : Imported H) (E : Option (String → Option Obj)) (l : Loc) (e code v : Obj)
    (st0 st0' st st1 : Quotes.St σ) (he : e.isK .Starred = false)
    (hc : astify H E (.node (.marker "Unquote") l [(.body, e)]) st0 = some (.ok code, st0'))
    (hv : Evaluates H e st v st1) (hr : Refused v) : ∃ err, eval H code st = some (.error err, st1) :=
  unquote_refused hH he hc hv hr

/-- `u[[value]]`, where `value` is an object (`Quotes.Ex.host`): TypeError. -/
example : Refused (.list [.ext 7]) ∧ Evaluates Quotes.Ex.host (Quotes.listNode [Quotes.Ex.name "value"]) Quotes.Ex.start
      (.list [.ext 7]) Quotes.Ex.start ∧
    (astify Quotes.Ex.host none (.node (.marker "Unquote") {} [(.body, Quotes.listNode [Quotes.Ex.name "value"])])
      Quotes.Ex.start).isSome = true ∧
    Quotes.Ex.result (do
      eval Quotes.Ex.host (← astify Quotes.Ex.host none
        (.node (.marker "Unquote") {} [(.body, Quotes.listNode [Quotes.Ex.name "value"])]))) = some (.error .typeError) :=
  ⟨.list (List.mem_singleton.2 rfl) .ext, rfl, by decide +kernel, by decide +kernel⟩

/-- C58: block mode.  `with q as name: body` becomes an assignment to `name` of the code that builds the list of
statements. -/
theorem C58_block_partial (L : Lib σ) (E : Env (User σ)) (hL : HasOps L E) (hH : Imported L.H)
    (hm : ∀ i, (∀ op, i ≠ L.id op) → ∀ a x, ((E.macros i).fn a).Ends both x x)
    (hh : ∀ i t r n x, (E.hooks i t r n).Ends both x x)
    (a : MArgs) (body : List Val) (ret : Ret) (s s' : Expander.St (User σ)) (n : Nat) (w : W σ)
    (hw : w = { s.world with locals := quoteBindings L s.world }) (hg : Dict.WF s.world.globals)
    (ho : OnlyOps L E w a.tree) (ha : a.synt = .block) (h0 : value s.world = 0) (hb : a.tree = .list body) (hne : body ≠ [])
    (hq : ∀ x ∈ body, Quotable E w x) (hs : Source a.tree) (hc : Captures L E w s.world a.tree)
    (h : run (visit E n) ((E.macros (L.id .q)).fn a) s = some (.ok ret, s')) :
    ∃ v target c ds, ret = .val v ∧ a.optionalVars = some target ∧ target.isK .Name = true ∧ v.isK .Assign = true ∧
      v.get? .targets = some (.list [target]) ∧ v.get? .value = some c ∧
      ResL L E w 1 body ds ∧ ∀ st r st', Evaluates L.H (.ofVal c) st r st' →
        ∃ m, Means L.H (.ofVal (.list ds)) st m st' ∧ (flat m = true → filled m = some r) := by
  obtain ⟨v, target, c, ds, h1, h2, h3, h4, h5, h6, hres, hc'⟩ :=
    quote_block L E hL hm hh a body ret s s' n w hw hg ho ha h0 hb hne hq h
  rw [hb] at hs hc
  exact ⟨v, target, c, ds, h1, h2, h3, h4, h5, h6, hres, fun st r st' he =>
    compiled_means hH hc' (res_template (.list hres) (by decide) hs hc) he⟩

/-- `with q as out:`, and two statements. -/
example : (∀ x ∈ [QuoteOps.Ex.stmt QuoteOps.Ex.display, QuoteOps.Ex.stmt QuoteOps.Ex.display],
      Quotable QuoteOps.Ex.env (QuoteOps.Ex.inner 0) x) ∧
    Source (.list [QuoteOps.Ex.stmt QuoteOps.Ex.display, QuoteOps.Ex.stmt QuoteOps.Ex.display]) ∧
    Captures QuoteOps.Ex.lib QuoteOps.Ex.env (QuoteOps.Ex.inner 0) (QuoteOps.Ex.world 0)
      (.list [QuoteOps.Ex.stmt QuoteOps.Ex.display, QuoteOps.Ex.stmt QuoteOps.Ex.display]) ∧
    ((run (visit QuoteOps.Ex.env 20) ((QuoteOps.Ex.env.macros (QuoteOps.Ex.lib.id .q)).fn
      ⟨.block, .list [QuoteOps.Ex.stmt QuoteOps.Ex.display, QuoteOps.Ex.stmt QuoteOps.Ex.display], some [],
        some (name "out"), mk .With []⟩) (init (QuoteOps.Ex.world 0))).map fun x => x.1.toOption.isSome) = some true :=
  ⟨by simp [QuoteOps.Ex.quotable_stmt], QuoteOps.Ex.source_stmts, QuoteOps.Ex.captures_stmts 0, by decide +kernel⟩

/-- C58: when evaluation succeeds.  If the unquotes get values that their operators accept (`Supplied`), the commands can be
carried out; and if the items of list unquotes then have places to go (`reached`, `filled`), what `q[x]` expands to evaluates
without an error. -/
theorem C58_succeeds_partial (L : Lib σ) (E : Env (User σ)) (hL : HasOps L E) (hH : Imported L.H)
    (hm : ∀ i, (∀ op, i ≠ L.id op) → ∀ a x, ((E.macros i).fn a).Ends both x x)
    (hh : ∀ i t r n x, (E.hooks i t r n).Ends both x x)
    (a : MArgs) (ret : Ret) (s s' : Expander.St (User σ)) (n : Nat) (w : W σ)
    (hw : w = { s.world with locals := quoteBindings L s.world }) (hg : Dict.WF s.world.globals)
    (ho : OnlyOps L E w a.tree) (ha : a.synt = .expr) (h0 : value s.world = 0) (hq : Quotable E w a.tree)
    (hs : Source a.tree) (hc : Captures L E w s.world a.tree)
    (h : run (visit E n) ((E.macros (L.id .q)).fn a) s = some (.ok ret, s')) :
    ∃ c d, ret = .val c ∧ Res L E w 1 a.tree d ∧ ∀ st st', Supplied L.H (.ofVal d) st st' →
      ∃ m, Means L.H (.ofVal d) st m st' ∧
        (flat m = true → reached m = true → ∀ r, filled m = some r → Evaluates L.H (.ofVal c) st r st') := by
  obtain ⟨d, c, h1, h2, h3⟩ := C35_quote_partial L E hL hm hh a ret s s' n w hw hg ho ha h0 hq h
  exact ⟨c, d, h1, h2, fun st st' he => compiled_supplied hH h3 (res_template h2 (by decide) hs hc) he⟩

/-- C58: the same for blocks. -/
theorem C58_block_succeeds_partial (L : Lib σ) (E : Env (User σ)) (hL : HasOps L E) (hH : Imported L.H)
    (hm : ∀ i, (∀ op, i ≠ L.id op) → ∀ a x, ((E.macros i).fn a).Ends both x x)
    (hh : ∀ i t r n x, (E.hooks i t r n).Ends both x x)
    (a : MArgs) (body : List Val) (ret : Ret) (s s' : Expander.St (User σ)) (n : Nat) (w : W σ)
    (hw : w = { s.world with locals := quoteBindings L s.world }) (hg : Dict.WF s.world.globals)
    (ho : OnlyOps L E w a.tree) (ha : a.synt = .block) (h0 : value s.world = 0) (hb : a.tree = .list body) (hne : body ≠ [])
    (hq : ∀ x ∈ body, Quotable E w x) (hs : Source a.tree) (hc : Captures L E w s.world a.tree)
    (h : run (visit E n) ((E.macros (L.id .q)).fn a) s = some (.ok ret, s')) :
    ∃ v c ds, ret = .val v ∧ v.get? .value = some c ∧ ResL L E w 1 body ds ∧
      ∀ st st', Supplied L.H (.ofVal (.list ds)) st st' → ∃ m, Means L.H (.ofVal (.list ds)) st m st' ∧
        (flat m = true → reached m = true → ∀ r, filled m = some r → Evaluates L.H (.ofVal c) st r st') := by
  obtain ⟨v, target, c, ds, h1, h2, h3, h4, h5, h6, hres, hc'⟩ :=
    quote_block L E hL hm hh a body ret s s' n w hw hg ho ha h0 hb hne hq h
  rw [hb] at hs hc
  exact ⟨v, c, ds, h1, h6, hres, fun st st' he =>
    compiled_supplied hH hc' (res_template (.list hres) (by decide) hs hc) he⟩

/-- `[y, u[three], a[lst], h[value]]`: the values are `3`, a list of two expressions, and an object that can be pickled. -/
example : Supplied Quotes.Ex.host (.list [Quotes.Ex.name "y",
      .node (.marker "Unquote") {} [(.body, Quotes.Ex.name "three")],
      .node (.marker "ASTLiteral") {} [(.body, Quotes.Ex.name "lst"), (.syntax_, .str "expr")],
      .node (.marker "Capture") {} [(.body, Quotes.Ex.name "value"), (.name, .const (.str "value"))]])
      Quotes.Ex.start Quotes.Ex.start ∧
    filled (.list [Quotes.Ex.name "y", spliceNodes {} [Quotes.Ex.name "a", Quotes.Ex.name "b"]]) =
      some (.list [Quotes.Ex.name "y", Quotes.Ex.name "a", Quotes.Ex.name "b"]) ∧
    reached (.list [Quotes.Ex.name "y", spliceNodes {} [Quotes.Ex.name "a", Quotes.Ex.name "b"]]) = true := by
  refine ⟨.list (.cons (.node (.cons .const (.cons (.node .nil) .nil))) (.cons (.u (v := .const (.int 3)) rfl (.const nofun))
    (.cons (.items (v := .list [Quotes.Ex.name "a", Quotes.Ex.name "b"]) (items := [Quotes.Ex.name "a", Quotes.Ex.name "b"])
      rfl rfl ⟨_, rfl, flattened_iff.2 (by decide +kernel), ?_⟩) (.cons (.h (v := .ext 7) (b := [7]) rfl rfl) .nil)))),
    by decide +kernel, by decide +kernel⟩
  intro z hz
  rcases List.mem_cons.1 hz with rfl | hz
  · exact .node rfl
  · cases List.mem_singleton.1 hz
    exact .node rfl

/-- C58, C37: captured macros, in expression mode.  As `C58_quote_partial`, but `h[k]` may capture a macro: what `q[x]`
expands to builds what `x` stands for, with the commands carried out as `Builds` says.  There `h[k]`, for a macro `k`, becomes
a name that is new and bound to that macro, and other names in `h` are captured as values.  The new names are the same each time the
code is evaluated: they are what `prev'` has and `prev` does not. -/
theorem C58_macros_partial (L : Lib σ) (E : Env (User σ)) (hL : HasOps L E) (hH : Imported L.H)
    (hm : ∀ i, (∀ op, i ≠ L.id op) → ∀ a x, ((E.macros i).fn a).Ends both x x)
    (hh : ∀ i t r n x, (E.hooks i t r n).Ends both x x)
    (a : MArgs) (ret : Ret) (s s' : Expander.St (User σ)) (n : Nat) (w : W σ)
    (hw : w = { s.world with locals := quoteBindings L s.world }) (hg : Dict.WF s.world.globals)
    (ho : OnlyOps L E w a.tree) (ha : a.synt = .expr) (h0 : value s.world = 0) (hq : Quotable E w a.tree)
    (hs : Source a.tree) (hu : Unstarred L E w a.tree)
    (h : run (visit E n) ((E.macros (L.id .q)).fn a) s = some (.ok ret, s')) :
    ∃ c d prev prev', ret = .val c ∧ Res L E w 1 a.tree d ∧ ∀ st r st', Evaluates L.H (.ofVal c) st r st' →
      ∃ m, Builds L.H (macros L s.world) prev (.ofVal d) st m st' prev' ∧ (flat m = true → filled m = some r) := by
  obtain ⟨d, c, h1, h2, h3⟩ := C35_quote_partial L E hL hm hh a ret s s' n w hw hg ho ha h0 hq h
  obtain ⟨prev, prev', h4⟩ := compiled_builds hH h3 (res_noMacros h2 (by decide) hs hu)
  exact ⟨c, d, prev, prev', h1, h2, fun st r st' he => h4 r st st' he⟩

/-- `q[[h[m], u[three], h[m]]]`, where `m` is bound to a macro: two new names, and 3 between them. -/
example : Quotable QuoteOps.Ex.env (QuoteOps.Ex.inner 0) QuoteOps.Ex.capturing ∧ Source QuoteOps.Ex.capturing ∧
    Unstarred QuoteOps.Ex.lib QuoteOps.Ex.env (QuoteOps.Ex.inner 0) QuoteOps.Ex.capturing ∧
    (macros QuoteOps.Ex.lib (QuoteOps.Ex.world 0) "m").isSome = true ∧
    (QuoteOps.Ex.valueOf (run (visit QuoteOps.Ex.env 20) ((QuoteOps.Ex.env.macros (QuoteOps.Ex.lib.id .q)).fn
      ⟨.expr, QuoteOps.Ex.capturing, some [], none, QuoteOps.Ex.op "q" QuoteOps.Ex.capturing⟩)
      (init (QuoteOps.Ex.world 0)))).map (fun r => r.toOption.map fun o => (o.get? .elts).map fun
        | .list xs => xs.map fun x => if x.isK .Name then x.get? .id else x.get? .value
        | _ => []) =
      some (some (some [some (.str "m_00000000000000000000000000000001"), some (.const (.int 3)),
        some (.str "m_00000000000000000000000000000002")])) :=
  ⟨QuoteOps.Ex.quotable_capturing 0, QuoteOps.Ex.source_capturing, QuoteOps.Ex.unstarred_capturing 0, by decide +kernel,
    by decide +kernel⟩

/-- C58, C37: captured macros in quotes inside of unquoted code.  There `C58_macros_partial` gives code in which these quotes
are replaced (`Res.quote`), by code that has the same meaning as what an outermost quote expands to. -/
theorem C58_inner_macros_partial (L : Lib σ) (E : Env (User σ)) (hH : Imported L.H) (w : W σ) (x d c : Val) (hs : Source x)
    (hu : Unstarred L E w x) (hd : Res L E w 1 x d) (hC : Compiled L E.filename w d c) :
    ∃ prev prev', ∀ st r st', Evaluates L.H (.ofVal c) st r st' →
      ∃ m, Builds L.H (macros L w) prev (.ofVal d) st m st' prev' ∧ (flat m = true → filled m = some r) := by
  obtain ⟨prev, prev', h⟩ := compiled_builds hH hC (res_noMacros hd (by decide) hs hu)
  exact ⟨prev, prev', fun st r st' he => h r st st' he⟩

/-- `h[u]`, as in `q[a[q[h[u]]]]`: the operator `u` is itself a macro that is bound there. -/
example : Source (QuoteOps.Ex.op "h" (Py.name "u")) ∧
    Unstarred QuoteOps.Ex.lib QuoteOps.Ex.env (QuoteOps.Ex.inner 0) (QuoteOps.Ex.op "h" (Py.name "u")) ∧
    (macros QuoteOps.Ex.lib (QuoteOps.Ex.inner 0) "u").isSome = true :=
  ⟨⟨by decide +kernel, by decide +kernel, by decide +kernel⟩, QuoteOps.Ex.unstarred_of (by decide +kernel), by decide +kernel⟩

/-- C58, C37: captured macros, in block mode. -/
theorem C58_block_macros_partial (L : Lib σ) (E : Env (User σ)) (hL : HasOps L E) (hH : Imported L.H)
    (hm : ∀ i, (∀ op, i ≠ L.id op) → ∀ a x, ((E.macros i).fn a).Ends both x x)
    (hh : ∀ i t r n x, (E.hooks i t r n).Ends both x x)
    (a : MArgs) (body : List Val) (ret : Ret) (s s' : Expander.St (User σ)) (n : Nat) (w : W σ)
    (hw : w = { s.world with locals := quoteBindings L s.world }) (hg : Dict.WF s.world.globals)
    (ho : OnlyOps L E w a.tree) (ha : a.synt = .block) (h0 : value s.world = 0) (hb : a.tree = .list body) (hne : body ≠ [])
    (hq : ∀ x ∈ body, Quotable E w x) (hs : Source a.tree) (hu : Unstarred L E w a.tree)
    (h : run (visit E n) ((E.macros (L.id .q)).fn a) s = some (.ok ret, s')) :
    ∃ v target c ds prev prev', ret = .val v ∧ a.optionalVars = some target ∧ target.isK .Name = true ∧
      v.isK .Assign = true ∧ v.get? .targets = some (.list [target]) ∧ v.get? .value = some c ∧
      ResL L E w 1 body ds ∧ ∀ st r st', Evaluates L.H (.ofVal c) st r st' →
        ∃ m, Builds L.H (macros L s.world) prev (.ofVal (.list ds)) st m st' prev' ∧ (flat m = true → filled m = some r) := by
  obtain ⟨v, target, c, ds, h1, h2, h3, h4, h5, h6, hres, hc'⟩ :=
    quote_block L E hL hm hh a body ret s s' n w hw hg ho ha h0 hb hne hq h
  rw [hb] at hs hu
  obtain ⟨prev, prev', h7⟩ := compiled_builds hH hc' (res_noMacros (.list hres) (by decide) hs hu)
  exact ⟨v, target, c, ds, prev, prev', h1, h2, h3, h4, h5, h6, hres, fun st r st' he => h7 r st st' he⟩

/-- `with q as out: [h[m], u[three], h[m]]` -/
example : (∀ x ∈ [QuoteOps.Ex.stmt QuoteOps.Ex.capturing], Quotable QuoteOps.Ex.env (QuoteOps.Ex.inner 0) x) ∧
    Source (.list [QuoteOps.Ex.stmt QuoteOps.Ex.capturing]) ∧
    Unstarred QuoteOps.Ex.lib QuoteOps.Ex.env (QuoteOps.Ex.inner 0) (.list [QuoteOps.Ex.stmt QuoteOps.Ex.capturing]) ∧
    ((run (visit QuoteOps.Ex.env 20) ((QuoteOps.Ex.env.macros (QuoteOps.Ex.lib.id .q)).fn
      ⟨.block, .list [QuoteOps.Ex.stmt QuoteOps.Ex.capturing], some [], some (name "out"), mk .With []⟩)
      (init (QuoteOps.Ex.world 0))).map fun x => x.1.toOption.isSome) = some true :=
  ⟨by simp [QuoteOps.Ex.quotable_capturing_stmt], QuoteOps.Ex.source_capturing_stmt,
    QuoteOps.Ex.unstarred_of (by decide +kernel), by decide +kernel⟩

/-- C58: the code that the outermost `q` returns contains no commands of the quasiquote system, whatever the quote has in it
and whatever other macros there are.  (Where the code would contain one, the expansion raises an error.) -/
theorem C58_noCommands (L : Lib σ) (E : Env (User σ)) (hL : HasOps L E)
    (hm : ∀ i, (∀ op, i ≠ L.id op) → ∀ a x, ((E.macros i).fn a).Ends both x x)
    (hh : ∀ i t r n x, (E.hooks i t r n).Ends both x x)
    (a : MArgs) (ret : Ret) (s s' : Expander.St (User σ)) (n : Nat) (h0 : value s.world = 0)
    (h : run (visit E n) ((E.macros (L.id .q)).fn a) s = some (.ok ret, s')) :
    ∃ v c, ret = .val v ∧ (a.synt = .expr ∧ v = c ∨ a.synt = .block ∧ v.get? .value = some c) ∧
      ∀ m, Reach c m → ¬ Command m := by
  rw [hL .q] at h
  have hs : a.synt = .expr ∨ a.synt = .block := by
    refine Decidable.byContradiction fun hs => ?_
    have h' : run (visit E n) (QuoteOps.quote L E.filename a) s = some (.ok ret, s') := h
    unfold QuoteOps.quote at h'
    rw [if_neg hs] at h'
    cases h'
  obtain ⟨x', v, s2, -, rfl, hcs⟩ := quote_step (keeps_both hL hm hh) hs h
  rcases hcs with ⟨hpos, -⟩ | ⟨-, w, w', -, hcomp⟩
  · omega
  · obtain ⟨code, hast, hq, he⟩ := compile_clean hcomp
    refine ⟨v, wrapped code E.filename, rfl, ?_, ?_⟩
    · rcases he with ⟨h1, rfl⟩ | ⟨h1, h2⟩
      · exact .inl ⟨hs.resolve_right h1, rfl⟩
      · refine .inr ⟨h1, ?_⟩
        unfold assign at h2
        split at h2
        · cases h2
        · split at h2
          · cases h2
          · split at h2 <;> cases h2
            rfl
    · rintro m hr ⟨k, l, fs, rfl, hk⟩
      rcases wrapped_reach hast rfl hr with h1 | ⟨_, _, _, h1⟩
      · have := hq _ h1
        have h2 : isQuasi (.marker k) = false := this
        unfold isQuasi at h2
        rcases hk with rfl | rfl | rfl | rfl | rfl | rfl | rfl | rfl <;> revert h2 <;> decide
      · cases h1

/-- `q[[y, u[three], a[lst], h[value]]]`: there are commands before the quote is compiled, and none afterwards. -/
example : value (QuoteOps.Ex.world 0) = 0 ∧
    ((visitAs QuoteOps.Ex.env 20 .recursively QuoteOps.Ex.display (init (QuoteOps.Ex.inner 1))).map fun x =>
      x.1.toOption.map fun r => (preorder r).any fun m => m.hasCls (· == .marker "ASTLiteral")) = some (some true) ∧
    ((run (visit QuoteOps.Ex.env 20) ((QuoteOps.Ex.env.macros (QuoteOps.Ex.lib.id .q)).fn
      ⟨.expr, QuoteOps.Ex.display, some [], none, QuoteOps.Ex.op "q" QuoteOps.Ex.display⟩) (init (QuoteOps.Ex.world 0))).map
      fun x => x.1.toOption.isSome) = some true :=
  ⟨rfl, by decide +kernel, by decide +kernel⟩

/-- C58: an operator in an invocation for which it has no meaning raises SyntaxError. -/
theorem C58_wrong_use (L : Lib σ) (E : Env (User σ)) (hL : HasOps L E) (op : Op) (a : MArgs) (hu : ¬ Allowed op a.synt)
    (vis : Val → X (User σ) Val) (s : Expander.St (User σ)) :
    run vis ((E.macros (L.id op)).fn a) s = some (.error (.py .syntaxError), s) := by
  rw [hL op]
  generalize hs : a.synt = y at hu
  cases y <;> cases op <;>
    first
      | exact absurd trivial hu
      | (simp only [opFn, QuoteOps.quote, exprUnquote, astUnquote, capture, hs, reduceCtorEq, or_self, if_false]; rfl)

example : ¬ Allowed .u .block ∧ ¬ Allowed .q .decorator ∧ ¬ Allowed .a .name := ⟨id, id, id⟩

/-- C58: `with a: e1; e2; …`, one level deep, where the expressions invoke no macros.  It becomes a command for the
compiler (`Means.block` is what that command builds): the values of the expressions, lists among them flattened,
must be statements, and these go in the place of the `with`. -/
theorem C58_astBlock_partial (L : Lib σ) (E : Env (User σ)) (hL : HasOps L E) (a : MArgs) (body : List Val)
    (ret : Ret) (s s' : Expander.St (User σ)) (n : Nat) (ha : a.synt = .block) (hb : a.tree = .list body)
    (hne : body ≠ []) (ht : ∀ x ∈ body, x.isAST = true) (h1 : value s.world = 1)
    (hi : ∀ x ∈ body, ∀ u, Open x u → fieldsOk u = true ∧ ¬ Invocation E s.world u)
    (h : run (visit E n) ((E.macros (L.id .a)).fn a) s = some (.ok ret, s')) :
    ∃ v es, ret = .val v ∧ ExprStmts body es ∧ v.isAST = true ∧
      ∀ st m st', Means L.H (.ofVal v) st m st' ↔ ∃ vs items, EvaluatesAll L.H es st vs st' ∧
        Quotes.Items L.H K.isStmt (.list vs) items ∧ m = spliceNodes {} items := by
  rw [hL .a] at h
  have h' : run (visit E n) (astUnquote a) s = some (.ok ret, s') := h
  unfold astUnquote at h'
  rw [if_pos (.inr ha)] at h'
  have h2 : run (visit E n) (if value s.world < 1 then Prog.raise (.py .syntaxError)
      else if a.synt = .block ∧ a.optionalVars ≠ some .none then .raise (.py .syntaxError)
      else unquote a (emitAST a.synt)) s = some (.ok ret, s') := h'
  rw [h1, if_neg (by decide)] at h2
  by_cases hv : a.synt = .block ∧ a.optionalVars ≠ some .none
  · rw [if_pos hv] at h2; cases h2
  · rw [if_neg hv] at h2
    have h3 := unquote_inert h1 (by rw [hb]; exact List.all_eq_true.2 ht) (by rw [hb]; intro e; cases e; exact hne rfl)
      (by rw [hb]; exact list_clean hi) h2
    rw [ha, hb] at h3
    cases hs : stripExprs body with
    | error e =>
      have : emitAST .block (.list body) = .error e := by
        unfold emitAST
        rw [if_neg (by decide)]
        show (stripExprs body >>= _) = _
        rw [hs]; rfl
      rw [this] at h3; cases h3
    | ok es =>
      have : emitAST .block (.list body) =
          .ok (marker "ASTLiteral" [(.body, mk .List [(.elts, .list es)]), (.syntax_, .str "block")]) := by
        unfold emitAST
        rw [if_neg (by decide)]
        show (stripExprs body >>= _) = _
        rw [hs]; rfl
      rw [this] at h3
      cases h3
      refine ⟨_, es, rfl, stripExprs_ok hs, rfl, ?_⟩
      intro st m st'
      show Means L.H (.node (.marker "ASTLiteral") {} [(.body, .ofVal (mk .List [(.elts, .list es)])),
          (.syntax_, .str "block")]) st m st' ↔ _
      constructor
      · intro hm
        obtain ⟨v, items, he, hit, rfl⟩ := means_block hm rfl
        obtain ⟨vs, rfl, hall⟩ := eval_display.1 he
        exact ⟨vs, items, hall, hit, rfl⟩
      · rintro ⟨vs, items, hall, hit, rfl⟩
        exact .block (eval_display.2 ⟨vs, rfl, hall⟩) hit

/-- C58: `with a as name:`, and statements in `with a:` that are not expressions, are syntax errors. -/
theorem C58_astBlock_refused (L : Lib σ) (E : Env (User σ)) (hL : HasOps L E) (a : MArgs) (body : List Val)
    (r : Except Exc Ret) (s s' : Expander.St (User σ)) (n : Nat) (ha : a.synt = .block) (hb : a.tree = .list body)
    (hne : body ≠ []) (ht : ∀ x ∈ body, x.isAST = true) (h1 : value s.world = 1)
    (hi : ∀ x ∈ body, ∀ u, Open x u → fieldsOk u = true ∧ ¬ Invocation E s.world u)
    (hval : ∀ x ∈ body, x.isK .Expr = true → (x.get? .value).isSome = true)
    (hr : a.optionalVars ≠ some .none ∨ ∃ x ∈ body, x.isK .Expr = false)
    (h : run (visit E n) ((E.macros (L.id .a)).fn a) s = some (r, s')) : r = .error (.py .syntaxError) := by
  rw [hL .a] at h
  have h' : run (visit E n) (astUnquote a) s = some (r, s') := h
  unfold astUnquote at h'
  rw [if_pos (.inr ha)] at h'
  have h2 : run (visit E n) (if value s.world < 1 then Prog.raise (.py .syntaxError)
      else if a.synt = .block ∧ a.optionalVars ≠ some .none then .raise (.py .syntaxError)
      else unquote a (emitAST a.synt)) s = some (r, s') := h'
  rw [h1, if_neg (by decide)] at h2
  by_cases hv : a.synt = .block ∧ a.optionalVars ≠ some .none
  · rw [if_pos hv] at h2; cases h2; rfl
  · rw [if_neg hv] at h2
    have h3 := unquote_inert h1 (by rw [hb]; exact List.all_eq_true.2 ht) (by rw [hb]; intro e; cases e; exact hne rfl)
      (by rw [hb]; exact list_clean hi) h2
    rw [ha, hb] at h3
    have hn : ∃ x ∈ body, x.isK .Expr = false := hr.resolve_left fun h => hv ⟨ha, h⟩
    have : emitAST .block (.list body) = .error (.py .syntaxError) := by
      unfold emitAST
      rw [if_neg (by decide)]
      show (stripExprs body >>= _) = _
      rw [stripExprs_refused hval hn]; rfl
    rw [this] at h3
    exact h3

/-- `with a: x; y` at level 1. -/
example : value (QuoteOps.Ex.world 1) = 1 ∧
    (∀ x ∈ [QuoteOps.Ex.stmt (name "x"), QuoteOps.Ex.stmt (name "y")], ∀ u, Open x u →
      fieldsOk u = true ∧ ¬ Invocation QuoteOps.Ex.env (QuoteOps.Ex.world 1) u) ∧
    ((run (visit QuoteOps.Ex.env 20) ((QuoteOps.Ex.env.macros (QuoteOps.Ex.lib.id .a)).fn
      ⟨.block, .list [QuoteOps.Ex.stmt (name "x"), QuoteOps.Ex.stmt (name "y")], some [], some .none, mk .With []⟩)
      (init (QuoteOps.Ex.world 1))).map fun x => x.1.toOption.isSome) = some true := by
  refine ⟨rfl, ?_, by decide +kernel⟩
  intro x hx u hu
  have : ∀ k, (∀ u, Open (QuoteOps.Ex.stmt (name k)) u → QuoteOps.Ex.inert u = true ∧ fieldsOk u = true) := by
    intro k u hu
    cases hu with
    | refl => exact ⟨rfl, rfl⟩
    | step _ h hu =>
      simp [QuoteOps.Ex.stmt, mk, childNodes, name] at h
      subst h
      cases hu with
      | refl => exact ⟨rfl, rfl⟩
      | step _ h hu =>
        simp [childNodes] at h
        subst h
        cases hu with
        | refl => exact ⟨rfl, rfl⟩
        | step _ h hu => simp [childNodes] at h
  rcases List.mem_cons.mp hx with rfl | hx
  · exact ⟨(this _ u hu).2, QuoteOps.Ex.not_invocation (this _ u hu).1⟩
  · rw [List.mem_singleton.mp hx] at hu
    exact ⟨(this _ u hu).2, QuoteOps.Ex.not_invocation (this _ u hu).1⟩

/-- C58 does not hold for `with a:` inside of a quote: there is another statement before the command, which becomes part
of the quoted code. -/
theorem C58_coverage_violated : ∃ (L : Lib Unit) (E : Env (User Unit)) (w : W Unit) (s' : Expander.St (User Unit))
    (l : Loc) (extra r : Val), HasOps L E ∧ value w = 1 ∧ extra.isK .Assign = true ∧
    Runs E .recursively (.node (.py .With) l [(.items, .list [mk .withitem [(.context_expr, name "a"), (.optional_vars, .none)]]),
        (.body, .list [QuoteOps.Ex.stmt (name "x")]), (.type_comment, .none)]) (init w)
      (.ok (.list [.node (.marker "Done") {} [(.body, extra)], r])) s' :=
  ⟨QuoteOps.Ex.lib, QuoteOps.Ex.env, QuoteOps.Ex.world 1, _, { lineno := .int 3, colOffset := .int 0, endLineno := .int 4, endColOffset := .int 8 }, _, _,
    QuoteOps.Ex.hasOps, rfl, rfl, ⟨20, rfl⟩⟩

/-- C58, C37: the name of a macro, or any other name, in `h`: `h[k]` captures the name `k` itself; an identifier macro is
not expanded in there.  Nothing else happens. -/
theorem C58_captureName (L : Lib σ) (E : Env (User σ)) (hL : HasOps L E) (a : MArgs) (l lc : Loc) (k name : String)
    (s : Expander.St (User σ)) (n : Nat) (ha : a.synt = .expr)
    (ht : a.tree = .node (.py .Name) l [(.id, .str k), (.ctx, .node (.py .Load) lc [])])
    (h1 : value s.world = 1) (hu : L.unparse a.tree = .ok name) (hn : a.tree.size ≤ n) :
    run (visit E n) ((E.macros (L.id .h)).fn a) s =
      some (.ok (.val (.node (.marker "Capture") {} [(.body, a.tree), (.name, .str name)])), s) := by
  rw [hL .h]
  show run (visit E n) (capture L (fun i => (E.macros i).isName) a) s = _
  unfold capture
  rw [if_pos ha]
  show run (visit E n) (if value s.world < 1 then Prog.raise (.py .syntaxError)
      else .put (push (value s.world - 1) s.world) (match L.unparse a.tree with
        | .error e => after (finishUnquote a (emitCapture "")) (.error (.py e))
        | .ok name =>
          if isNameMacro (fun i => (E.macros i).isName) s.world a.tree then after (finishUnquote a (emitCapture name)) (.ok a.tree)
          else .visit .recursively a.tree (after (finishUnquote a (emitCapture name))))) s = _
  rw [h1, if_neg (by decide), hu]
  have hfin : run (visit E n) (after (finishUnquote a (emitCapture name)) (.ok a.tree)) { s with world := push 0 s.world } =
      some (.ok (.val (.node (.marker "Capture") {} [(.body, a.tree), (.name, .str name)])), s) := rfl
  show run (visit E n) (if isNameMacro (fun i => (E.macros i).isName) s.world a.tree
      then after (finishUnquote a (emitCapture name)) (.ok a.tree)
      else .visit .recursively a.tree (after (finishUnquote a (emitCapture name)))) { s with world := push 0 s.world } = _
  cases hm : isNameMacro (fun i => (E.macros i).isName) s.world a.tree with
  | true => exact hfin
  | false =>
    show run (visit E n) (.visit .recursively a.tree (after (finishUnquote a (emitCapture name)))) _ = _
    have hv : visit E n a.tree { s with recursive := true, world := push 0 s.world } =
        some (.ok a.tree, { s with recursive := true, world := push 0 s.world }) := by
      refine visit_clean E _ n a.tree (by rw [ht]; rfl) (by rw [ht]; simp) ?_ hn
      intro u hu
      rw [ht] at hu hm
      cases hu with
      | refl =>
        refine ⟨rfl, fun hi => ?_⟩
        cases hi with
        | expr h => cases h
        | block h => cases h
        | decorator h => rcases h with h | h <;> cases h
        | name _ hk _ hb hi =>
          cases hk
          have hb' : isbound s.world _ = _ := hb
          simp [isNameMacro, Val.isK, Val.get?, List.lookup] at hm
          simp [hb'] at hm
          rw [hm] at hi; cases hi
      | step _ h hu =>
        simp [childNodes] at h
        subst h
        cases hu with
        | refl =>
          refine ⟨rfl, fun hi => ?_⟩
          cases hi with
          | expr h => cases h
          | block h => cases h
          | decorator h => rcases h with h | h <;> cases h
          | name h => cases h
        | step _ h hu => simp [childNodes] at h
    change M.bind (M.attempt (M.bracket _ _ (visit E n a.tree))) _ _ = _
    simp only [M.bind, M.attempt, M.bracket]
    have hv' : visit E n a.tree { recursive := true, hook := s.hook, depth := s.depth, log := s.log, world := push 0 s.world } = _ := hv
    simp only [hv']
    exact hfin

/-- The surroundings, with an identifier macro `m`. -/
def QuoteOps.nameEnv : Env (User Unit) :=
  { QuoteOps.Ex.env with
    macros := fun
      | 0 => ⟨false, false, opFn QuoteOps.Ex.lib "a.py" (· == 7) .q⟩
      | 1 => ⟨false, false, opFn QuoteOps.Ex.lib "a.py" (· == 7) .u⟩
      | 2 => ⟨false, false, opFn QuoteOps.Ex.lib "a.py" (· == 7) .n⟩
      | 3 => ⟨false, false, opFn QuoteOps.Ex.lib "a.py" (· == 7) .a⟩
      | 4 => ⟨false, false, opFn QuoteOps.Ex.lib "a.py" (· == 7) .s⟩
      | 5 => ⟨false, false, opFn QuoteOps.Ex.lib "a.py" (· == 7) .t⟩
      | 6 => ⟨false, false, opFn QuoteOps.Ex.lib "a.py" (· == 7) .h⟩
      | 7 => { isName := true, isParam := false, fn := fun _ => .ret (.val (name "y")) }
      | _ => QuoteOps.Ex.identity }

/-- `h[m]` captures `m`, although `m` alone is expanded. -/
example : HasOps QuoteOps.Ex.lib QuoteOps.nameEnv ∧ value (QuoteOps.Ex.world 1) = 1 ∧
    QuoteOps.Ex.lib.unparse (name "m") = .ok "m" ∧
    ((visit QuoteOps.nameEnv 20 (name "m") (init (QuoteOps.Ex.world 1))).map fun x =>
      decide (x.1.toOption = some (name "m"))) = some false ∧
    ∃ s', run (visit QuoteOps.nameEnv 20) ((QuoteOps.nameEnv.macros (QuoteOps.Ex.lib.id .h)).fn
      ⟨.expr, name "m", some [], none, .none⟩) (init (QuoteOps.Ex.world 1)) =
      some (.ok (.val (.node (.marker "Capture") {} [(.body, name "m"), (.name, .str "m")])), s') := by
  refine ⟨?_, rfl, rfl, by decide +kernel, ⟨_, rfl⟩⟩
  intro op
  have h : (fun i => (QuoteOps.nameEnv.macros i).isName) = (· == 7) := by
    funext i
    rcases i with _ | _ | _ | _ | _ | _ | _ | _ | i <;> rfl
  rw [h]
  cases op <;> rfl

end Mcpyrate
