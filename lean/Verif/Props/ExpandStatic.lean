import Verif.Lemmas.ExpandQuoted
import Verif.Lemmas.ExpandUnquoted
import Verif.Lemmas.ExpandCommands
import Verif.Lemmas.ExpandForward
import Verif.Spec.QuasiquoteExample
/-
C53 static expansion of quoted code.

Full statement: `expandsq[x]` evaluates at run time to the AST that `x` expands to, with the macros of the use site
(`expand1sq[x]`: when one layer of macros is expanded); `expands[q[x]]` and `expand1s[q[x]]` do the same.  As block macros,
`with expandsq as name:` assigns the expanded statements to `name`.  Used as another kind of macro, these raise
SyntaxError; an argument that is not quoted code raises TypeError.

The block macros do not have the property: `with expandsq as name:` never returns (`C53_block_violated`), and neither does
`with expands:` (`C53_block_expands_violated`).  A call of a function as argument of `expands` raises NotImplementedError
(`C53_rejects_violated`).

The theorems about the results are for code as built by the parser, without complex number constants (which cannot be
quoted, see C32); and, in `C53_expands_partial`, without debug hooks.  For code without unquotes, that the result evaluates to the expansion is shown for expansions of the same kind; the expansion has no locations then
(C32).  For code with unquotes, `C53_unquotes_partial` is about `expandsq` and `expand1sq`, when there are no invocations of macros
of the use site inside of the unquotes; `C53_invocations_partial` when there are (these are expanded by one layer first; they
must not expand to lists of nodes); `C53_expands_unquotes_partial` about `expands` and `expand1s` of a quote, with or without;
`C53_commands_partial` about the second quote.  `C53_argument_partial` and `C53_macro_partial` are about other arguments of
`expands` and `expand1s`, that expand to quoted code.

Missing: in `C53_invocations_partial`, invocations inside of the unquotes that expand to lists of nodes.
-/
namespace Mcpyrate
open Py Expander QuoteOps ExpandStatic

variable {σ : Type}

/-- C53, `expandsq[x]`, `expand1sq[x]`: exactly as if `x` were expanded by the expander of the use site, and the expansion
then quoted; whether that returns, raises or does not terminate. -/
theorem C53_expandsq_partial (L : Lib σ) (E : Env (User σ)) (filename : String) (layers : Layers) (a : MArgs)
    (s : Expander.St (User σ)) (ha : a.synt = .expr) (hv : a.optionalVars = none) (h0 : value s.world = 0)
    (hl : Dict.WF s.world.locals) (hg : Dict.WF s.world.globals) (hm : NotAMacro E s.world "mcpyrate")
    (h : Plain L E s.world a.tree) (hlo : Quotes.located (.ofVal a.tree) = true) (r : Except Exc Ret)
    (s' : Expander.St (User σ)) :
    Does E (expandSq L filename layers a) s r s' ↔
      (∃ e, Runs E layers.mode a.tree s (.error e) s' ∧ r = .error e) ∨
      ∃ x s1, Runs E layers.mode a.tree s (.ok (layers.result x)) s1 ∧
        Does E (quote L filename { a with tree := x }) s1 r s' := by
  obtain ⟨N, hN⟩ := run_expandSq L E filename layers a ha hv s h0 hl hg hm h hlo
  rw [does_eventually hN, does_requote]

/-- C53, `expands[q[x]]`, `expand1s[q[x]]`: exactly the same, after the application of the quote has been noted. -/
theorem C53_expands_partial (L : Lib σ) (E : Env (User σ)) (hE : HasOps L E) (filename : String) (layers : Layers) (a b : MArgs)
    (s : Expander.St (User σ)) (ha : a.synt = .expr) (h0 : value s.world = 0)
    (hl : Dict.WF s.world.locals) (hg : Dict.WF s.world.globals) (hh : s.hook = none) (c : Val) (k : String)
    (hw : WellFormed a.tree) (hi : Invokes E s.world a.tree k (L.id .q) b c) (hb : b.synt = .expr)
    (hbad : ¬ BadCall c) (h : Plain L E s.world b.tree) (hlo : Quotes.located (.ofVal b.tree) = true) (r : Except Exc Ret)
    (s' : Expander.St (User σ)) :
    Does E (expandS L filename layers a) s r s' ↔
      (∃ e, Runs E layers.mode b.tree (logged s false k (L.id .q) b) (.error e) s' ∧ r = .error e) ∨
      ∃ x s1, Runs E layers.mode b.tree (logged s false k (L.id .q) b) (.ok (layers.result x)) s1 ∧
        Does E (quote L filename { a with tree := x }) s1 r s' := by
  obtain ⟨c', h1, -, h3⟩ := runs_quote L E hE s hh h0 hl hg a.tree c k b hw hi hbad hb h hlo
  obtain ⟨N, hN⟩ := run_expandS_once L E filename layers a ha s _ b.tree c' h3 h1 h.parsed hlo
  rw [does_eventually' hN, does_requote]

/-- C53: the second quote gives code for the expansion. -/
theorem C53_code_partial (L : Lib σ) (hL : Quotes.Imported L.H) (E : Env (User σ)) (filename : String) (a : MArgs)
    (ha : a.synt = .expr) (s : Expander.St (User σ)) (h0 : value s.world = 0) (hl : Dict.WF s.world.locals)
    (hg : Dict.WF s.world.globals) (h : Plain L E s.world a.tree) (hf : Quotes.flat (.ofVal a.tree) = true)
    (hr : Quotes.reached (.ofVal a.tree) = true) :
    ∃ code, Does E (quote L filename a) s (.ok (.val code)) s ∧ EvaluatesTo L code a.tree := by
  obtain ⟨c, h1, -, h3⟩ := quote_static L E filename a ha s h0 hl hg h
  refine ⟨codeOf filename c, ⟨_, h3 _ (Nat.le_refl _)⟩, ?_⟩
  obtain ⟨code, k1, k2⟩ := C32_quote_partial L.H hL none (.str filename) (.ofVal a.tree) h.parsed hf h.noComplex
  rw [if_pos hr] at k2
  have : code = Obj.ofVal (codeOf filename c) := by
    unfold Quotes.quote at k1
    rw [h1 none, M.pure_bind'] at k1
    have := congrFun k1 s.world.user.st
    change some (Except.ok (Quotes.callNode (Quotes.quotesAttr "splice_ast_literals")
      [.ofVal c, Quotes.constantNode (.str filename)] []), _) = some (Except.ok code, _) at this
    rw [← ofVal_codeOf] at this
    injection this with this
    injection this with this
    injection this with this
    exact this.symm
  subst this
  exact k2

/-- C53, all together: if `x` expands to `x'`, then `expandsq[x]` is replaced by code that evaluates to `x'`. -/
theorem C53_value_partial (L : Lib σ) (hL : Quotes.Imported L.H) (E : Env (User σ)) (filename : String) (layers : Layers)
    (a : MArgs) (s : Expander.St (User σ)) (ha : a.synt = .expr) (hv : a.optionalVars = none) (h0 : value s.world = 0)
    (hl : Dict.WF s.world.locals) (hg : Dict.WF s.world.globals) (hm : NotAMacro E s.world "mcpyrate")
    (h : Plain L E s.world a.tree) (hlo : Quotes.located (.ofVal a.tree) = true) (x' : Val) (s1 : Expander.St (User σ))
    (hx : Runs E layers.mode a.tree s (.ok (layers.result x')) s1) (h0' : value s1.world = 0)
    (hl' : Dict.WF s1.world.locals) (hg' : Dict.WF s1.world.globals) (h' : Plain L E s1.world x')
    (hf : Quotes.flat (.ofVal x') = true) (hr : Quotes.reached (.ofVal x') = true) :
    ∃ code, Does E (expandSq L filename layers a) s (.ok (.val code)) s1 ∧ EvaluatesTo L code x' := by
  obtain ⟨code, h1, h2⟩ := C53_code_partial L hL E filename { a with tree := x' } ha s1 h0' hl' hg' h' hf hr
  exact ⟨code, (C53_expandsq_partial L E filename layers a s ha hv h0 hl hg hm h hlo _ _).2 (.inr ⟨x', s1, hx, h1⟩), h2⟩

/-- C53, with unquotes: if the quote succeeds, and there are no macro invocations of the use site in the code that it
generates (so there are none in the unquoted code), then `expandsq[x]` and `expand1sq[x]` do exactly as if what `x` stands
for, with commands in place of its unquotes (`Res`), were expanded by the expander of the use site, and the expansion then
quoted.  If the quote raises an exception, they raise it. -/
theorem C53_unquotes_partial (L : Lib σ) (E : Env (User σ)) (hE : HasOps L E)
    (hm : ∀ i, (∀ op, i ≠ L.id op) → ∀ a x, ((E.macros i).fn a).Ends both x x)
    (hh : ∀ i t r n x, (E.hooks i t r n).Ends both x x)
    (layers : Layers) (a : MArgs) (s s0 : Expander.St (User σ)) (w : W σ)
    (hw : w = { s.world with locals := quoteBindings L s.world }) (hg : Dict.WF s.world.globals) (ho : OnlyOps L E w a.tree)
    (ha : a.synt = .expr) (hv : a.optionalVars = none) (h0 : value s.world = 0) (hq : Quotable E w a.tree)
    (hs : Source a.tree) (hc : Captures L E w s.world a.tree) :
    (∀ e s', Does E (quote L E.filename a) s (.error e) s' → Does E (expandSq L E.filename layers a) s (.error e) s') ∧
    ∀ code, Does E (quote L E.filename a) s (.ok (.val code)) s0 → code.isAST = true → WellFormed code →
      NoInvocations E s0.world code →
      ∃ d, Res L E w 1 a.tree d ∧ ∀ r s', Does E (expandSq L E.filename layers a) s r s' ↔
        (∃ e, Runs E layers.mode d s0 (.error e) s' ∧ r = .error e) ∨
        ∃ x s1, Runs E layers.mode d s0 (.ok (layers.result x)) s1 ∧
          Does E (quote L E.filename { a with tree := x }) s1 r s' := by
  refine ⟨fun e s' h => does_expandSq_error ha h, fun code h hast hwf hni => ?_⟩
  obtain ⟨n, hn⟩ := h
  obtain ⟨d, c, h1, h2, h3⟩ := C35_quote_partial L E hE hm hh a _ s s0 n w hw hg ho ha h0 hq (by rw [hE .q]; exact hn)
  cases h1
  obtain ⟨d', h4, h5⟩ := unastify_compiled h3 (res_template h2 (by decide) hs hc) s0.world
  refine ⟨d', .like h2 h4, fun r s' => ?_⟩
  rw [does_expandSq_quiet ha hv ⟨n, hn⟩ hast (fun u hu => ⟨hwf u hu.reach, hni u hu⟩) h5, does_requote]

/-- C53, with macro invocations inside of the unquotes.  The code that the quote generates is expanded once.  If that raises an
exception, so do `expandsq[x]` and `expand1sq[x]`.  Otherwise they do exactly as if what `x` stands for, with commands in place of
its unquotes (`Res`), and in these one layer of macros expanded (`Forwards`), were expanded by the expander of the use site, and
the expansion then quoted. -/
theorem C53_invocations_partial (L : Lib σ) (E : Env (User σ)) (hE : HasOps L E)
    (hm : ∀ i, (∀ op, i ≠ L.id op) → ∀ a x, ((E.macros i).fn a).Ends both x x)
    (hh : ∀ i t r n x, (E.hooks i t r n).Ends both x x)
    (layers : Layers) (a : MArgs) (s s0 : Expander.St (User σ)) (w : W σ)
    (hw : w = { s.world with locals := quoteBindings L s.world }) (hg : Dict.WF s.world.globals) (ho : OnlyOps L E w a.tree)
    (ha : a.synt = .expr) (hv : a.optionalVars = none) (h0 : value s.world = 0) (hq : Quotable E w a.tree)
    (hs : Source a.tree) (hc : Captures L E w s.world a.tree) (hb : ∃ k i, isbound s.world k = some i)
    (hmc : NotAMacro E s.world "mcpyrate") (code : Val) (h : Does E (quote L E.filename a) s (.ok (.val code)) s0) :
    (∀ e s', Runs E .once code s0 (.error e) s' → Does E (expandSq L E.filename layers a) s (.error e) s') ∧
    ∀ t1 s1, Runs E .once code s0 (.ok t1) s1 →
      ∃ d, Res L E w 1 a.tree d ∧ (SingleNodes E s.world d → ∃ d', Forwards E s0 d d' s1 ∧
        ∀ r s', Does E (expandSq L E.filename layers a) s r s' ↔
          (∃ e, Runs E layers.mode d' s1 (.error e) s' ∧ r = .error e) ∨
          ∃ x s2, Runs E layers.mode d' s1 (.ok (layers.result x)) s2 ∧
            Does E (quote L E.filename { a with tree := x }) s2 r s') := by
  refine ⟨fun e s' hr => does_expandSq_failed ha hv h hr, fun t1 s1 hr => ?_⟩
  obtain ⟨n, hn⟩ := h
  have hk := keeps_both hE hm hh
  obtain ⟨d, c, h1, h2, h3⟩ := C35_quote_partial L E hE hm hh a _ s s0 n w hw hg ho ha h0 hq (by rw [hE .q]; exact hn)
  cases h1
  obtain ⟨d1, h4, l1⟩ := compiled_raw h3 (res_template h2 (by decide) hs hc)
  have hbk : both s0.world = both s.world :=
    run_ends both_local (fun t => visit_keeps both_local hk n t) _ _ _
      (opFn_both L E.filename (fun i => (E.macros i).isName) .q a _) s rfl _ _ hn
  simp only [both, Prod.mk.injEq] at hbk
  have hib : ∀ k, isbound s0.world k = isbound s.world k := bindings_isbound hbk.1
  refine ⟨d1, .like h2 l1, fun hsn => ?_⟩
  obtain ⟨c', d', rfl, h5, h6⟩ := h4.runs hk (by simpa only [hib] using hb) (fun i hi => hmc i (by rw [← hib]; exact hi))
    (fun b hb1 hb2 s r s' hbd hr => hsn b hb1 hb2 s r s' (fun k => (hbd k).trans (hib k)) hr) hr
  refine ⟨d', h6, fun r s' => ?_⟩
  rw [does_expandSq_once ha hv ⟨n, hn⟩ hr h5.un, does_requote]

/-- C53, with unquotes, `expands[q[x]]` and `expand1s[q[x]]`: if the first expansion of the argument succeeds, they do
exactly as if what `x` stands for, with commands in place of its unquotes (`Res`), were expanded by the expander of the use
site, and the expansion then quoted.  If the first expansion raises an exception, they raise it.  There may be macro
invocations in the unquoted code, and debug hooks. -/
theorem C53_expands_unquotes_partial (L : Lib σ) (E : Env (User σ)) (hE : HasOps L E)
    (hm : ∀ i, (∀ op, i ≠ L.id op) → ∀ a x, ((E.macros i).fn a).Ends both x x)
    (hh : ∀ i t r n x, (E.hooks i t r n).Ends both x x)
    (filename : String) (layers : Layers) (a b : MArgs) (s s0 : Expander.St (User σ)) (w : W σ)
    (hw : w = { s.world with locals := quoteBindings L s.world }) (hg : Dict.WF s.world.globals) (ho : OnlyOps L E w b.tree)
    (ha : a.synt = .expr) (h0 : value s.world = 0) (c : Val) (k : String) (hwf : WellFormed a.tree)
    (hi : Invokes E s.world a.tree k (L.id .q) b c) (hb : b.synt = .expr) (hbad : ¬ BadCall c) (hq : Quotable E w b.tree)
    (hs : Source b.tree) (hc : Captures L E w s.world b.tree) :
    (∀ e s', Runs E .once a.tree s (.error e) s' → Does E (expandS L filename layers a) s (.error e) s') ∧
    ∀ t1, Runs E .once a.tree s (.ok t1) s0 →
      ∃ d, Res L E w 1 b.tree d ∧ ∀ r s', Does E (expandS L filename layers a) s r s' ↔
        (∃ e, Runs E layers.mode d s0 (.error e) s' ∧ r = .error e) ∨
        ∃ x s1, Runs E layers.mode d s0 (.ok (layers.result x)) s1 ∧
          Does E (quote L filename { a with tree := x }) s1 r s' := by
  refine ⟨fun e s' h => does_expandS_error ha h, fun t1 h => ?_⟩
  obtain ⟨n, ret, s2, hrun, hout⟩ := runs_once_output hwf hi hbad hb h
  obtain ⟨d, c1, rfl, h2, h3⟩ := C35_quote_partial L E hE hm hh b _
    (enterMacro k (L.id .q) b { s with recursive := false }) s2 n w hw hg ho hb h0 hq hrun
  obtain ⟨d1, h4, l1⟩ := compiled_un h3 (res_template h2 (by decide) hs hc)
  obtain ⟨m, e, l2, l3, rfl⟩ := hout c1 rfl h4.isAST
  obtain ⟨d2, h5, l4⟩ := h4.like l2
  obtain ⟨d3, h6, l5⟩ := h5.like l3
  refine ⟨d3, .like (.like (.like h2 l1) l4) l5, fun r s' => ?_⟩
  obtain ⟨N, hN⟩ := run_expandS_un L E filename layers a ha s s0 d3 e h h6
  rw [does_eventually' hN, does_requote]

/-- C53, `expands[x]` and `expand1s[x]`, whatever `x` is: if it is expanded, by one layer, to quoted code, they do exactly as if what
is quoted were expanded by the expander of the use site, and the expansion then quoted. -/
theorem C53_argument_partial (L : Lib σ) (E : Env (User σ)) (filename : String) (layers : Layers) (a : MArgs)
    (s s0 : Expander.St (User σ)) (ha : a.synt = .expr) (code d : Val) (hv : Runs E .once a.tree s (.ok (done code)) s0)
    (hc : QuotedCode L d code) :
    ∃ d', Likes d d' ∧ ∀ r s', Does E (expandS L filename layers a) s r s' ↔
      (∃ e, Runs E layers.mode d' s0 (.error e) s' ∧ r = .error e) ∨
      ∃ x s1, Runs E layers.mode d' s0 (.ok (layers.result x)) s1 ∧
        Does E (quote L filename { a with tree := x }) s1 r s' := by
  obtain ⟨d', h1, h2⟩ := hc.un
  refine ⟨d', h2, fun r s' => ?_⟩
  obtain ⟨N, hN⟩ := run_expandS_un L E filename layers a ha s s0 d' code hv h1
  rw [does_eventually' hN, does_requote]

/-- C53, `expands[m[…]]` and `expand1s[m[…]]`, where `m` is any macro that returns quoted code: if the invocation is expanded without
an exception, they do exactly as if what is quoted were expanded by the expander of the use site, and the expansion then
quoted.  If it raises an exception, so do they. -/
theorem C53_macro_partial (L : Lib σ) (E : Env (User σ)) (filename : String) (layers : Layers) (a b : MArgs)
    (s s0 : Expander.St (User σ)) (ha : a.synt = .expr) (c : Val) (k : String) (id : Nat) (hwf : WellFormed a.tree)
    (hi : Invokes E s.world a.tree k id b c) (hb : b.synt = .expr) (hbad : ¬ BadCall c) (d : Val)
    (hq : ∀ s1 ret s2, s1.world = s.world → Does E ((E.macros id).fn b) s1 (.ok ret) s2 →
      ∃ code, ret = .val code ∧ QuotedCode L d code) :
    (∀ e s', Runs E .once a.tree s (.error e) s' → Does E (expandS L filename layers a) s (.error e) s') ∧
    ∀ t1, Runs E .once a.tree s (.ok t1) s0 →
      ∃ d', Likes d d' ∧ ∀ r s', Does E (expandS L filename layers a) s r s' ↔
        (∃ e, Runs E layers.mode d' s0 (.error e) s' ∧ r = .error e) ∨
        ∃ x s1, Runs E layers.mode d' s0 (.ok (layers.result x)) s1 ∧
          Does E (quote L filename { a with tree := x }) s1 r s' := by
  refine ⟨fun e s' h => does_expandS_error ha h, fun t1 h => ?_⟩
  obtain ⟨n, ret, s2, hrun, hout⟩ := runs_once_output hwf hi hbad hb h
  obtain ⟨code, rfl, hcode⟩ := hq (enterMacro k id b { s with recursive := false }) ret s2 rfl ⟨n, hrun⟩
  obtain ⟨m, e, l1, l2, rfl⟩ := hout code rfl hcode.isAST
  exact C53_argument_partial L E filename layers a s s0 ha e d h ((hcode.like l1).like l2)

/-- C53, with unquotes: the second quote gives code for the expansion, with the commands in it carried out. -/
theorem C53_commands_partial (L : Lib σ) (hL : Quotes.Imported L.H) (E : Env (User σ)) (hE : HasOps L E)
    (hm : ∀ i, (∀ op, i ≠ L.id op) → ∀ a x, ((E.macros i).fn a).Ends both x x)
    (hh : ∀ i t r n x, (E.hooks i t r n).Ends both x x)
    (filename : String) (a : MArgs) (ret : Ret) (s s' : Expander.St (User σ)) (w : W σ)
    (hw : w = { s.world with locals := quoteBindings L s.world }) (ha : a.synt = .expr) (h0 : value s.world = 0)
    (hast : a.tree.isAST = true) (hwf : WellFormed a.tree) (hni : NoInvocations E w a.tree)
    (hd : ∀ m, Reach a.tree m → m.hasCls isSearchDone = false)
    (ht : Quotes.template (some fun k => (isbound s.world k).map L.function) (.ofVal a.tree) = true)
    (h : Does E (quote L filename a) s (.ok ret) s') :
    ∃ code, ret = .val code ∧ ∀ st r st', Quotes.Evaluates L.H (.ofVal code) st r st' →
      ∃ m, Quotes.Means L.H (.ofVal a.tree) st m st' ∧ (Quotes.flat m = true → Quotes.filled m = some r) := by
  subst hw
  obtain ⟨c, rfl, hc⟩ := quote_quiet (keeps_both hE hm hh) ha h0 hast (fun u hu => ⟨hwf u hu.reach, hni u hu⟩) hd h
  exact ⟨c, rfl, fun st r st' he => compiled_means hL hc ht he⟩

/-- C53: other kinds of macros. -/
theorem C53_kinds (L : Lib σ) (E : Env (User σ)) (filename : String) (layers : Layers) (a : MArgs)
    (s : Expander.St (User σ)) (ha : a.synt = .decorator ∨ a.synt = .name) :
    Does E (expandSq L filename layers a) s (.error (.py .syntaxError)) s ∧
    Does E (expandS L filename layers a) s (.error (.py .syntaxError)) s := by
  have : ¬ (a.synt = .expr ∨ a.synt = .block) := by rcases ha with h | h <;> rw [h] <;> decide
  refine ⟨⟨0, ?_⟩, ⟨0, ?_⟩⟩
  · unfold expandSq; rw [if_neg this]; rfl
  · unfold expandS; rw [if_neg this]; rfl

/-- C53: an argument of `expands` that expands to something that is not quoted code. -/
theorem C53_rejects (L : Lib σ) (E : Env (User σ)) (filename : String) (layers : Layers) (a : MArgs) (x : Val)
    (s s1 : Expander.St (User σ)) (ha : a.synt = .expr) (hv : Runs E .once a.tree s (.ok (done x)) s1)
    (h1 : Quotes.isList (.ofVal x) = false) (h2 : ∀ k ∈ Quotes.uncompiled, (Obj.ofVal x).isK k = false) :
    Does E (expandS L filename layers a) s (.error (.py .typeError)) s1 :=
  expandS_rejects ha hv (C33_rejects L.H (.ofVal x) h1 h2)

/-- C53 does not hold for calls: `expands[f(x)]` raises NotImplementedError. -/
theorem C53_rejects_violated (L : Lib σ) (E : Env (User σ)) (filename : String) (layers : Layers) (a : MArgs) (l : Loc)
    (f : Val) (fs : Fields) (s s1 : Expander.St (User σ)) (ha : a.synt = .expr)
    (hv : Runs E .once a.tree s (.ok (done (.node (.py .Call) l ((.func, f) :: fs)))) s1)
    (h : ∀ p, Quotes.dotted (.ofVal f) [] = some p → p.head? ≠ some "mcpyrate") :
    Does E (expandS L filename layers a) s (.error (.py .notImplementedError)) s1 :=
  expandS_rejects ha hv (C33_rejects_calls L.H l (.ofVal f) (Obj.ofFields fs) h)

/-- C53 does not hold in block mode: `with expandsq as name:` does not return, whatever the body is. -/
theorem C53_block_violated (L : Lib σ) (E : Env (User σ)) (filename : String) (layers : Layers) (a : MArgs)
    (ha : a.synt = .block) (s s' : Expander.St (User σ)) (ret : Ret) : ¬ Does E (expandSq L filename layers a) s (.ok ret) s' := by
  rintro ⟨n, h⟩
  obtain ⟨e, he⟩ := expandSq_block ha h
  cases he

/-- C53 does not hold in block mode: `with expands:` does not return, outside of quotes. -/
theorem C53_block_expands_violated (L : Lib σ) (E : Env (User σ)) (hk : E.Keeps levels) (filename : String)
    (layers : Layers) (a : MArgs) (ha : a.synt = .block) (s s' : Expander.St (User σ)) (h0 : value s.world = 0) (ret : Ret) :
    ¬ Does E (expandS L filename layers a) s (.ok ret) s' := by
  rintro ⟨n, h⟩
  obtain ⟨e, he⟩ := expandS_block hk ha h0 h
  cases he

/-! Concrete cases: `m[m[y]]`, where `m[e]` expands to `e`. -/
section
open QuoteOps.Ex (lib env world)

private def loc (col : Nat) : Loc := ⟨.int 1, .int col, .int 1, .int (col + 1)⟩
private def nameAt (col : Nat) (k : String) : Val := .node (.py .Name) (loc col) [(.id, .str k), (.ctx, mk .Load [])]
private def subAt (col : Nat) (k : String) (x : Val) : Val :=
  .node (.py .Subscript) (loc col) [(.value, nameAt col k), (.slice, x), (.ctx, mk .Load [])]

private def y : Val := nameAt 4 "y"
private def my : Val := subAt 2 "m" y
private def mmy : Val := subAt 0 "m" my

private theorem plain_of {x : Val} (h1 : x.isAST = true) (h2 : Quotes.parsed (.ofVal x) = true)
    (h3 : Quotes.hasComplex (.ofVal x) = false) (h4 : (preorder x).all fieldsOk = true)
    (h5 : ((preorder x).flatMap nameOf).all (fun k => k = "m" ∨ k = "y") = true) : Plain lib env (world 0) x := by
  refine ⟨h1, h2, h3, fun u hu => ?_, fun w2 hs u hu => ?_⟩
  · cases hua : u.isAST with
    | true => exact List.all_eq_true.mp h4 u (reach_mem_preorder hu hua)
    | false => cases u with
      | node => cases hua
      | _ => rfl
  · refine noInvocation_names (fun k hk => ?_) u hu
    have hk := of_decide_eq_true (List.all_eq_true.mp h5 k hk)
    cases hb : isbound w2 k with
    | none => rfl
    | some f =>
      rcases (hs.bound _ _).mp hb with ⟨h, hf⟩ | ⟨-, h⟩
      · rcases hk with rfl | rfl
        · cases h; revert hf; decide
        · cases h
      · cases h

private theorem plain_mmy : Plain lib env (world 0) mmy :=
  plain_of rfl (by decide +kernel) (by decide +kernel) (by decide +kernel) (by decide +kernel)
private theorem plain_my : Plain lib env (world 0) my :=
  plain_of rfl (by decide +kernel) (by decide +kernel) (by decide +kernel) (by decide +kernel)
private theorem plain_y : Plain lib env (world 0) y :=
  plain_of rfl (by decide +kernel) (by decide +kernel) (by decide +kernel) (by decide +kernel)

private theorem notAMacro (w : World (User Unit)) : NotAMacro env w "mcpyrate" := fun i _ => congrFun QuoteOps.Ex.isName_eq i

private def args (x : Val) : MArgs := ⟨.expr, x, some [], none, subAt 0 "expandsq" x⟩

/-- The state after `m[m[y]]` has been expanded. -/
private def afterwards : Layers → Expander.St (User Unit)
  | .one => { init (world 0) with log := [⟨"m", 7, ⟨.expr, my, some [], none, mmy⟩, 0, false, some 7⟩] }
  | .all => { init (world 0) with log := [⟨"m", 7, ⟨.expr, my, some [], none, mmy⟩, 0, true, some 7⟩,
      ⟨"m", 7, ⟨.expr, y, some [], none, my⟩, 0, true, some 7⟩] }

private theorem runs_one : Runs env .once mmy (init (world 0)) (.ok (done my)) (afterwards .one) := ⟨10, rfl⟩
private theorem runs_all : Runs env .recursively mmy (init (world 0)) (.ok y) (afterwards .all) := ⟨10, rfl⟩

private theorem wfL : Dict.WF (world 0).locals := by unfold Dict.WF; decide
private theorem wfG : Dict.WF (world 0).globals := by unfold Dict.WF; decide

/-- `expand1sq[m[m[y]]]` evaluates to `m[y]`, `expandsq[m[m[y]]]` to `y`. -/
example :
    (∃ code, Does env (expandSq lib "a.py" .one (args mmy)) (init (world 0)) (.ok (.val code)) (afterwards .one) ∧ EvaluatesTo lib code my) ∧
    (∃ code, Does env (expandSq lib "a.py" .all (args mmy)) (init (world 0)) (.ok (.val code)) (afterwards .all) ∧ EvaluatesTo lib code y) :=
  ⟨C53_value_partial lib rfl env "a.py" .one (args mmy) (init (world 0)) rfl rfl rfl wfL wfG (notAMacro _) plain_mmy
    (by decide +kernel) my (afterwards .one) runs_one rfl wfL wfG plain_my (by decide +kernel) (by decide +kernel),
   C53_value_partial lib rfl env "a.py" .all (args mmy) (init (world 0)) rfl rfl rfl wfL wfG (notAMacro _) plain_mmy
    (by decide +kernel) y (afterwards .all) runs_all rfl wfL wfG plain_y (by decide +kernel) (by decide +kernel)⟩

/-- `m[(y, u[three])]` -/
private def withUnquote : Val := QuoteOps.Ex.op "m" (mk .Tuple [(.elts, .list [name "y", QuoteOps.Ex.op "u" (name "three")]), (.ctx, mk .Load [])])

/-- A quote gives code in which nothing looks like a macro invocation. -/
private def quiet (r : Option (Except Exc Ret × Expander.St (User Unit))) : Bool := match r with
  | some (.ok (.val c), _) => c.isAST && (preorder c).all fun u => fieldsOk u && QuoteOps.Ex.inert u
  | _ => false

/-- `expandsq[m[(y, u[three])]]` meets the hypotheses of `C53_unquotes_partial`, and evaluates to `(y, 3)`. -/
example : Quotable env (QuoteOps.Ex.inner 0) withUnquote ∧ Source withUnquote ∧
    Captures lib env (QuoteOps.Ex.inner 0) (world 0) withUnquote ∧
    (∃ code s0, Does env (quote lib env.filename (args withUnquote)) (init (world 0)) (.ok (.val code)) s0 ∧ code.isAST = true ∧
      WellFormed code ∧ NoInvocations env s0.world code) ∧
    ((QuoteOps.Ex.valueOf (run (visit env 20) (expandSq lib env.filename .all (args withUnquote)) (init (world 0)))).map
      fun r => r.toOption.map fun o => o.get? .elts) =
      some (some (some (.list [Quotes.Ex.name "y", Quotes.constantNode (.int 3)]))) := by
  refine ⟨QuoteOps.Ex.quotable_of rfl (by decide +kernel), ⟨by decide +kernel, by decide +kernel, by decide +kernel⟩,
    QuoteOps.Ex.captures_of (by decide +kernel), ?_, by decide +kernel⟩
  have h : quiet (run (visit env 20) (quote lib env.filename (args withUnquote)) (init (world 0))) = true := by decide +kernel
  cases hr : run (visit env 20) (quote lib env.filename (args withUnquote)) (init (world 0)) with
  | none => rw [hr] at h; cases h
  | some p =>
    obtain ⟨r, s0⟩ := p
    rw [hr] at h
    match r, hr, h with
    | .ok (.val c), hr, h =>
      simp only [quiet, Bool.and_eq_true] at h
      have key : ∀ u, Reach c u → u.isAST = true → fieldsOk u = true ∧ QuoteOps.Ex.inert u = true := fun u hu hua => by
        have := List.all_eq_true.mp h.2 u (reach_mem_preorder hu hua)
        rw [Bool.and_eq_true] at this
        exact this
      refine ⟨c, s0, ⟨20, hr⟩, h.1, fun u hu => ?_, fun u hu hi => QuoteOps.Ex.not_invocation (key u hu.reach hi.isAST).2 hi⟩
      cases hua : u.isAST with
      | true => exact (key u hu hua).1
      | false => cases u with
        | node => cases hua
        | _ => rfl

/-- `(y, u[three])`, with a command in place of the unquote -/
private def command : Val := mk .Tuple [(.elts, .list [name "y", marker "Unquote" [(.body, name "three")]]), (.ctx, mk .Load [])]

/-- It meets the hypotheses of `C53_commands_partial`. -/
example : command.isAST = true ∧ WellFormed command ∧ NoInvocations env (QuoteOps.Ex.inner 0) command ∧
    (∀ m, Reach command m → m.hasCls isSearchDone = false) ∧
    Quotes.template (some fun k => (isbound (world 0) k).map lib.function) (.ofVal command) = true ∧
    ((QuoteOps.Ex.valueOf (run (visit env 20) (quote lib env.filename (args command)) (init (world 0)))).map
      fun r => r.toOption.map fun o => o.get? .elts) =
      some (some (some (.list [Quotes.Ex.name "y", Quotes.constantNode (.int 3)]))) := by
  have key : ∀ u, Reach command u → u.isAST = true → fieldsOk u = true ∧ QuoteOps.Ex.inert u = true ∧ u.hasCls isSearchDone = false :=
    fun u hu hua => by
      have h : ((preorder command).all fun u => fieldsOk u && QuoteOps.Ex.inert u && !u.hasCls isSearchDone) = true := by decide +kernel
      have := List.all_eq_true.mp h u (reach_mem_preorder hu hua)
      simp only [Bool.and_eq_true, Bool.not_eq_true'] at this
      exact ⟨this.1.1, this.1.2, this.2⟩
  refine ⟨rfl, fun u hu => ?_, fun u hu hi => QuoteOps.Ex.not_invocation (key u hu.reach hi.isAST).2.1 hi, fun u hu => ?_,
    by decide +kernel, by decide +kernel⟩
  · cases hua : u.isAST with
    | true => exact (key u hu hua).1
    | false => cases u with
      | node => cases hua
      | _ => rfl
  · cases hua : u.isAST with
    | true => exact (key u hu hua).2.2
    | false => cases u with
      | node => cases hua
      | _ => rfl

/-- `q[m[m[y]]]` -/
private def quoted : Val := subAt 0 "q" mmy
private def quotedArgs : MArgs := ⟨.expr, mmy, some [], none, quoted⟩

private theorem wellFormed_quoted : WellFormed quoted := by
  intro u hu
  cases hua : u.isAST with
  | true =>
    have h : (preorder quoted).all fieldsOk = true := by decide +kernel
    exact List.all_eq_true.mp h u (reach_mem_preorder hu hua)
  | false => cases u with
    | node => cases hua
    | _ => rfl

/-- `expand1s[q[m[m[y]]]]` evaluates to `m[y]`. -/
example : ∃ code s', Does env (expandS lib "a.py" .one (args quoted)) (init (world 0)) (.ok (.val code)) s' ∧ EvaluatesTo lib code my := by
  obtain ⟨code, h1, h2⟩ := C53_code_partial lib rfl env "a.py" { args quoted with tree := my } rfl
    { afterwards .one with log := [⟨"q", 0, quotedArgs, 0, false, some 0⟩, ⟨"m", 7, ⟨.expr, my, some [], none, mmy⟩, 0, false, some 7⟩] }
    rfl wfL wfG plain_my (by decide +kernel) (by decide +kernel)
  refine ⟨code, _, (C53_expands_partial lib env QuoteOps.Ex.hasOps "a.py" .one (args quoted) quotedArgs (init (world 0)) rfl rfl wfL wfG
    rfl (nameAt 0 "q") "q" wellFormed_quoted (.expr rfl rfl (.plain rfl rfl) ⟨by decide, rfl, .inl rfl⟩ rfl) rfl
    (fun h => by cases h.1) plain_mmy (by decide +kernel) _ _).2 (.inr ⟨my, _, ⟨10, rfl⟩, h1⟩), h2⟩

/-- The code that `q[m[m[y]]]` is replaced by, and its use in the argument of a macro. -/
private def codeMmy : Val := match run (visit env 20) (quote lib "a.py" (args mmy)) (init (world 0)) with
  | some (.ok (.val c), _) => c
  | _ => .none
private def mCode : Val := subAt 0 "m" codeMmy
private def mCodeArgs : MArgs := ⟨.expr, codeMmy, some [], none, mCode⟩

private theorem quoted_codeMmy : QuotedCode lib mmy codeMmy :=
  ⟨"a.py", world 0, codeMmy, ⟨Quotes.Ex.start, Quotes.Ex.start, rfl⟩, by decide +kernel, .refl⟩

/-- `expands[m[c]]`, where `c` is the code that `q[m[m[y]]]` is replaced by, meets the hypotheses of `C53_macro_partial`, and evaluates
to `y`. -/
example : WellFormed (args mCode).tree ∧ Invokes env (world 0) (args mCode).tree "m" 7 mCodeArgs (nameAt 0 "m") ∧
    ¬ BadCall (nameAt 0 "m") ∧
    (∀ s1 ret s2, s1.world = world 0 → Does env ((env.macros 7).fn mCodeArgs) s1 (.ok ret) s2 →
      ∃ code, ret = .val code ∧ QuotedCode lib mmy code) ∧
    (∃ t1 s0, Runs env .once (args mCode).tree (init (world 0)) (.ok t1) s0) ∧
    ((QuoteOps.Ex.valueOf (run (visit env 20) (expandS lib env.filename .all (args mCode)) (init (world 0)))).map
      fun r => r.toOption) = some (some (Quotes.Ex.name "y")) := by
  refine ⟨fun u hu => ?_, .expr rfl rfl (.plain rfl rfl) ⟨by decide, rfl, .inl rfl⟩ rfl, (fun h => by cases h.1), ?_, ?_,
    by decide +kernel⟩
  · cases hua : u.isAST with
    | true =>
      have h : (preorder mCode).all fieldsOk = true := by decide +kernel
      exact List.all_eq_true.mp h u (reach_mem_preorder hu hua)
    | false => cases u with
      | node => cases hua
      | _ => rfl
  · rintro s1 ret s2 - ⟨n, h⟩
    cases h
    exact ⟨_, rfl, quoted_codeMmy⟩
  · have h : ((visitAs env 20 .once (args mCode).tree (init (world 0))).map (·.1.toOption.isSome)) = some true := by decide +kernel
    cases hr : visitAs env 20 .once (args mCode).tree (init (world 0)) with
    | none => rw [hr] at h; cases h
    | some p =>
      obtain ⟨r, s0⟩ := p
      rw [hr] at h
      cases r with
      | error => cases h
      | ok t1 => exact ⟨t1, s0, 20, hr⟩

/-- `m[(y, u[m[three]])]`: an invocation inside of the unquoted code -/
private def withInvocation : Val :=
  QuoteOps.Ex.op "m" (mk .Tuple [(.elts, .list [name "y", QuoteOps.Ex.op "u" (QuoteOps.Ex.op "m" (name "three"))]), (.ctx, mk .Load [])])
private def quotedInvocation : Val := subAt 0 "q" withInvocation
private def invocationArgs : MArgs := ⟨.expr, withInvocation, some [], none, quotedInvocation⟩

/-- `expands[q[m[(y, u[m[three]])]]]` meets the hypotheses of `C53_expands_unquotes_partial`, and evaluates to `(y, 3)`. -/
example : WellFormed (args quotedInvocation).tree ∧
    Invokes env (world 0) (args quotedInvocation).tree "q" (lib.id .q) invocationArgs (nameAt 0 "q") ∧ ¬ BadCall (nameAt 0 "q") ∧
    Quotable env (QuoteOps.Ex.inner 0) withInvocation ∧ Source withInvocation ∧
    Captures lib env (QuoteOps.Ex.inner 0) (world 0) withInvocation ∧
    (∃ t1 s0, Runs env .once (args quotedInvocation).tree (init (world 0)) (.ok t1) s0) ∧
    ((QuoteOps.Ex.valueOf (run (visit env 20) (expandS lib env.filename .all (args quotedInvocation)) (init (world 0)))).map
      fun r => r.toOption.map fun o => o.get? .elts) =
      some (some (some (.list [Quotes.Ex.name "y", Quotes.constantNode (.int 3)]))) := by
  refine ⟨fun u hu => ?_, .expr rfl rfl (.plain rfl rfl) ⟨by decide, rfl, .inl rfl⟩ rfl, (fun h => by cases h.1),
    QuoteOps.Ex.quotable_of rfl (by decide +kernel), ⟨by decide +kernel, by decide +kernel, by decide +kernel⟩,
    QuoteOps.Ex.captures_of (by decide +kernel), ?_, by decide +kernel⟩
  · cases hua : u.isAST with
    | true =>
      have h : (preorder quotedInvocation).all fieldsOk = true := by decide +kernel
      exact List.all_eq_true.mp h u (reach_mem_preorder hu hua)
    | false => cases u with
      | node => cases hua
      | _ => rfl
  · have h : ((visitAs env 20 .once quotedInvocation (init (world 0))).map (·.1.toOption.isSome)) = some true := by decide +kernel
    cases hr : visitAs env 20 .once quotedInvocation (init (world 0)) with
    | none => rw [hr] at h; cases h
    | some p =>
      obtain ⟨r, s0⟩ := p
      cases r with
      | error => rw [hr] at h; cases h
      | ok t1 => exact ⟨t1, s0, 20, hr⟩

/-- `m[(y, u[m[three]])]`, with a command in place of the unquote, before and after the expansion of the unquoted code -/
private def commandInvocation (b : Val) : Val :=
  QuoteOps.Ex.op "m" (mk .Tuple [(.elts, .list [name "y", marker "Unquote" [(.body, b)]]), (.ctx, mk .Load [])])

/-- `expandsq[m[(y, u[m[three]])]]` meets the hypotheses of `C53_invocations_partial`, and evaluates to `(y, 3)`. -/
example : (∃ k i, isbound (world 0) k = some i) ∧ NotAMacro env (world 0) "mcpyrate" ∧
    (((run (visit env 20) (quote lib env.filename (args withInvocation)) (init (world 0))).bind fun p => match p with
      | (.ok (.val code), s0) => visitAs env 20 .once code s0
      | _ => none).map (·.1.toOption.isSome)) = some true ∧
    SingleNodes env (world 0) (commandInvocation (QuoteOps.Ex.op "m" (name "three"))) ∧
    (∃ s1, Forwards env (init (world 0)) (commandInvocation (QuoteOps.Ex.op "m" (name "three"))) (commandInvocation (name "three")) s1) ∧
    ((QuoteOps.Ex.valueOf (run (visit env 20) (expandSq lib env.filename .all (args withInvocation)) (init (world 0)))).map
      fun r => r.toOption.map fun o => o.get? .elts) =
      some (some (some (.list [Quotes.Ex.name "y", Quotes.constantNode (.int 3)]))) := by
  refine ⟨⟨"m", 7, rfl⟩, notAMacro _, by decide +kernel, fun b hb _ s r s' hbd hr => ?_, ?_, by decide +kernel⟩
  · have hbe := unquotes_bodies hb
    rw [show bodies (commandInvocation (QuoteOps.Ex.op "m" (name "three"))) = [QuoteOps.Ex.op "m" (name "three")] from rfl,
      List.mem_singleton] at hbe
    subst hbe
    have hwf : WellFormed (QuoteOps.Ex.op "m" (name "three")) := by
      intro u hu
      cases hua : u.isAST with
      | true =>
        have h : (preorder (QuoteOps.Ex.op "m" (name "three"))).all fieldsOk = true := by decide +kernel
        exact List.all_eq_true.mp h u (reach_mem_preorder hu hua)
      | false => cases u with
        | node => cases hua
        | _ => rfl
    obtain ⟨n, ret, s0, h1, h2⟩ := runs_once_output (k := "m") (id := 7) (c := name "m")
      (a := ⟨.expr, name "three", some [], none, QuoteOps.Ex.op "m" (name "three")⟩) hwf
      (.expr rfl rfl (.plain rfl rfl) ⟨by decide, hbd "m", .inl rfl⟩ rfl) (fun h => by cases h.1) rfl hr
    obtain ⟨x, e, l1, l2, h3⟩ := h2 (name "three") (by cases h1; rfl) rfl
    cases h3
    cases l1
    cases l2
    rfl
  · have hname : ∀ k s, Forwards env s (name k) (name k) s := fun k s =>
      .node (fun n _ h => by cases h) (.cons .const (.cons (.node (fun n _ h => by cases h) .nil) .nil))
    exact ⟨_, .node (fun n _ h => by cases h) (.cons (hname _ _) (.cons (.node (fun n _ h => by cases h)
      (.cons (.list (.cons (hname _ _) (.cons (.command (by decide) ⟨10, rfl⟩) .nil)))
        (.cons (.node (fun n _ h => by cases h) .nil) .nil)))
      (.cons (.node (fun n _ h => by cases h) .nil) .nil)))⟩

/-- The outcome of a call. -/
private def outcome (p : Prog (User Unit)) : Option (Except Exc Ret) := (run (visit env 20) p (init (world 0))).map (·.1)

/-- `expands[y]`, `expands[m[f(y)]]` -/
example : outcome (expandS lib "a.py" .all (args y)) = some (.error (.py .typeError)) ∧
    outcome (expandS lib "a.py" .all (args (subAt 0 "m" (Expander.Ex.call (name "f") [y])))) =
      some (.error (.py .notImplementedError)) := ⟨rfl, rfl⟩

/-- `with expandsq as x: m[y]` and `with expands: m[y]` -/
example : outcome (expandSq lib "a.py" .all ⟨.block, .list [mk .Expr [(.value, my)]], some [], some (nameAt 3 "x"), my⟩) =
      some (.error (.py .typeError)) ∧
    outcome (expandS lib "a.py" .all ⟨.block, .list [mk .Expr [(.value, my)]], some [], some .none, my⟩) =
      some (.error (.py .typeError)) := ⟨rfl, rfl⟩

/-- The macros of the example leave the quote level alone. -/
example : env.Keeps levels := by
  refine QuoteOps.keeps_levels QuoteOps.Ex.hasOps (fun i hi a x => ?_) (fun _ _ _ _ _ => rfl)
  rcases i with _ | _ | _ | _ | _ | _ | _ | i
  · exact absurd rfl (hi .q)
  · exact absurd rfl (hi .u)
  · exact absurd rfl (hi .n)
  · exact absurd rfl (hi .a)
  · exact absurd rfl (hi .s)
  · exact absurd rfl (hi .t)
  · exact absurd rfl (hi .h)
  · rfl

end
end Mcpyrate
