import Verif.Lemmas.ExpandRuntime
import Verif.Props.ExpandStatic
import Verif.Props.Fixpoint
import Verif.Props.Quasiquote
/-
C54 run-time expansion.

Full statement: `expandr[tree]` evaluates, at run time, to the expansion of the value of `tree`, with the macros that were
bound at the use site when `expandr` was expanded, also if the code runs in another process (`expand1r`: one layer of
macros).  `expandrq[x]` is `expandr[q[x]]`, and `with expandrq as name:` assigns the expanded statements to `name`.
`macro_bindings` evaluates to a dictionary of these macros.  Macros that cannot be pickled are an error when `expandr` is
expanded; wrong use is a SyntaxError.

`with expandr:` is accepted, but the code it makes cannot run (`C54_block_violated`).

What the quote inside `expandrq` evaluates to: `C54_value_partial` for code without unquotes, `C54_unquotes_partial` and
`C54_unquotes_block_partial` with unquotes, under the conditions of C58.

At run time the expander also has the global bindings of that process (`C54_bound`).  The cache of `lookup_value` is left
out here; C38 is about it.  The call of `runtime_expand` by the generated code is the last step of `Delays`; what
`runtime_expand` does is the subject of `C54_runtime`.
-/
namespace Mcpyrate
open Py Expander QuoteOps ExpandStatic ExpandRuntime

variable {σ υ : Type}

/-- C54, `macro_bindings`: code for a dictionary of the macros that are bound here and now. -/
theorem C54_bindings (L : Lib σ) (E : Env υ) (a : MArgs) (s : Expander.St υ) (ha : a.synt = .name)
    (hl : Dict.WF s.world.locals) (hg : Dict.WF s.world.globals) (hP : Picklable L s.world) :
    ∃ code b, Does E (macroBindingsMacro L a) s (.ok (.val code)) s ∧ Snapshot s.world b ∧
      ∀ (τ : Type) (H : Quotes.Host τ), RunTime L s.world H → Quotes.eval H (.ofVal code) = pure (dictOf L b) := by
  refine ⟨_, _, ⟨0, ?_⟩, snapshot hl hg, fun τ H hR => eval_bindings hR hP (snapshot hl hg)⟩
  unfold macroBindingsMacro
  rw [if_neg (by simp [ha])]
  show run _ (match macroBindings L s.world with
    | .error e => .raise (.py e)
    | .ok x => ExpandFirst.give (asCode x)) s = _
  rw [macroBindings_ok hl hg hP]
  dsimp only
  rw [asCode_of]
  rfl

/-- C54, `expandr[tree]`, `expand1r[tree]`. -/
theorem C54_expandr (L : Lib σ) (E : Env υ) (filename : String) (layers : Layers) (a : MArgs) (s : Expander.St υ)
    (ha : a.synt = .expr) (hl : Dict.WF s.world.locals) (hg : Dict.WF s.world.globals) (hP : Picklable L s.world) :
    ∃ code, Does E (expandR L filename layers a) s (.ok (.val code)) s ∧ Delays L filename layers s.world a.tree code :=
  ⟨_, does_expandR (.inl ha) hl hg hP, delays _ _ _ hl hg hP⟩

/-- C54, `expandrq[x]`, `expand1rq[x]`: the same for the code that `q[x]` makes; unquotes or not. -/
theorem C54_expandrq (L : Lib σ) (E : Env (User σ)) (filename : String) (layers : Layers) (a : MArgs)
    (s s1 : Expander.St (User σ)) (ha : a.synt = .expr) (quoted : Val)
    (hq : Does E (quote L filename a) s (.ok (.val quoted)) s1)
    (hl : Dict.WF s1.world.locals) (hg : Dict.WF s1.world.globals) (hP : Picklable L s1.world) :
    ∃ code, Does E (expandRq L filename layers a) s (.ok (.val code)) s1 ∧
      Delays L filename layers s1.world quoted code := by
  refine ⟨_, ?_, delays _ _ quoted hl hg hP⟩
  unfold expandRq
  rw [if_pos (.inl ha)]
  refine does_followed hq ?_
  show Does E (expandQuoted L filename layers a quoted) s1 _ s1
  unfold expandQuoted
  rw [if_pos ha]
  exact does_expandR (a := { a with tree := quoted }) (.inl ha) hl hg hP

/-- C54, `with expandrq as name:`, `with expand1rq as name:`: the code on the right of the assignment that `q` makes is
replaced. -/
theorem C54_expandrq_block (L : Lib σ) (E : Env (User σ)) (filename : String) (layers : Layers) (a : MArgs)
    (s s1 : Expander.St (User σ)) (ha : a.synt = .block) (targets comment quoted : Val)
    (hq : Does E (quote L filename a) s
      (.ok (.val (mk .Assign [(.targets, targets), (.value, quoted), (.type_comment, comment)]))) s1)
    (hl : Dict.WF s1.world.locals) (hg : Dict.WF s1.world.globals) (hP : Picklable L s1.world) :
    ∃ code, Does E (expandRq L filename layers a) s
        (.ok (.val (mk .Assign [(.targets, targets), (.value, code), (.type_comment, comment)]))) s1 ∧
      Delays L filename layers s1.world quoted code := by
  refine ⟨_, ?_, delays _ _ quoted hl hg hP⟩
  unfold expandRq
  rw [if_pos (.inr ha)]
  refine does_followed hq ?_
  show Does E (expandQuoted L filename layers a _) s1 _ s1
  unfold expandQuoted
  rw [if_neg (by simp [ha]), if_pos (show Val.isK .Assign (mk .Assign _) = true from rfl)]
  exact does_followed (does_expandR (a := { a with tree := quoted, optionalVars := some .none }) (.inr ⟨ha, rfl⟩) hl hg hP)
    ⟨0, rfl⟩

/-- C54: the exceptions of the quote are passed on. -/
theorem C54_expandrq_raises (L : Lib σ) (E : Env (User σ)) (filename : String) (layers : Layers) (a : MArgs)
    (s s1 : Expander.St (User σ)) (ha : a.synt = .expr ∨ a.synt = .block) (e : Exc)
    (hq : Does E (quote L filename a) s (.error e) s1) : Does E (expandRq L filename layers a) s (.error e) s1 := by
  unfold expandRq
  rw [if_pos ha]
  exact does_followed_error hq

/-- C54, all together for code without unquotes: at run time, `expandrq[x]` expands `x` (without locations). -/
theorem C54_value_partial (L : Lib σ) (hL : Quotes.Imported L.H) (E : Env (User σ)) (filename : String) (layers : Layers)
    (a : MArgs) (s : Expander.St (User σ)) (ha : a.synt = .expr) (h0 : value s.world = 0)
    (hl : Dict.WF s.world.locals) (hg : Dict.WF s.world.globals) (h : Plain L E s.world a.tree)
    (hf : Quotes.flat (.ofVal a.tree) = true) (hr : Quotes.reached (.ofVal a.tree) = true) (hP : Picklable L s.world) :
    ∃ code b, Does E (expandRq L filename layers a) s (.ok (.val code)) s ∧ Snapshot s.world b ∧
      (RunTime L s.world L.H → Quotes.eval L.H (.ofVal code) =
        callsExpander L L.H filename layers b (Quotes.noLoc (.ofVal a.tree))) := by
  obtain ⟨quoted, h1, h2⟩ := C53_code_partial L hL E filename a ha s h0 hl hg h hf hr
  obtain ⟨code, h3, b, h4, h5⟩ := C54_expandrq L E filename layers a s s ha quoted h1 hl hg hP
  refine ⟨code, b, h3, h4, fun hR => ?_⟩
  rw [h5 _ _ hR, h2, M.pure_bind']

/-- C54, `expandrq[x]` with unquotes: the tree that is expanded at run time is what `q[x]` evaluates to (C58): what `x`
stands for, with the unquotes evaluated then and filled in. -/
theorem C54_unquotes_partial (L : Lib σ) (E : Env (User σ)) (hE : HasOps L E) (hL : Quotes.Imported L.H)
    (hm : ∀ i, (∀ op, i ≠ L.id op) → ∀ a x, ((E.macros i).fn a).Ends both x x)
    (hh : ∀ i t r n x, (E.hooks i t r n).Ends both x x)
    (layers : Layers) (a : MArgs) (ret : Ret) (s s' : Expander.St (User σ)) (w : W σ)
    (hw : w = { s.world with locals := quoteBindings L s.world }) (ho : OnlyOps L E w a.tree) (ha : a.synt = .expr)
    (h0 : value s.world = 0) (hq : Quotable E w a.tree) (hs : Source a.tree) (hc : Captures L E w s.world a.tree)
    (hl : Dict.WF s.world.locals) (hg : Dict.WF s.world.globals) (hP : Picklable L s.world)
    (h : Does E (expandRq L E.filename layers a) s (.ok ret) s') :
    ∃ code d b, ret = .val code ∧ Res L E w 1 a.tree d ∧ Snapshot s.world b ∧ (RunTime L s.world L.H →
      ∀ st r st', Quotes.Evaluates L.H (.ofVal code) st r st' → ∃ m x st1, Quotes.Means L.H (.ofVal d) st m st1 ∧
        (Quotes.flat m = true → Quotes.filled m = some x) ∧
        callsExpander L L.H E.filename layers b x st1 = some (.ok r, st')) := by
  obtain ⟨n, h⟩ := h
  unfold expandRq at h
  rw [if_pos (.inl ha), run_followed] at h
  obtain ⟨ret1, s1, h1, h2⟩ := bind_ok h
  have hfn : (E.macros (L.id .q)).fn a = quote L E.filename a := by rw [hE .q]; rfl
  obtain ⟨c, d, rfl, h3, h4⟩ := C58_quote_partial L E hE hL hm hh a ret1 s s1 n w hw hg ho ha h0 hq hs hc (by rw [hfn]; exact h1)
  have hb : both s1.world = both s.world :=
    run_ends both_local (fun t => visit_keeps both_local (keeps_both hE hm hh) n t) _ _ _
      (opFn_both L E.filename (fun i => (E.macros i).isName) .q a _) s rfl _ _ h1
  simp only [both, bindings, Prod.mk.injEq] at hb
  obtain ⟨⟨hb1, hb2⟩, -⟩ := hb
  have hib : ∀ k, isbound s1.world k = isbound s.world k := bindings_isbound (by simp only [bindings, hb1, hb2])
  change run (visit E n) (expandQuoted L E.filename layers a c) s1 = _ at h2
  unfold expandQuoted at h2
  rw [if_pos ha] at h2
  have hP1 : Picklable L s1.world := fun k i hi => hP k i (by rw [← hib]; exact hi)
  have hd := does_expandR (L := L) (E := E) (filename := E.filename) (layers := layers) (a := { a with tree := c }) (s := s1)
    (.inl ha) (by rw [hb1]; exact hl) (by rw [hb2]; exact hg) hP1
  obtain ⟨n', hd⟩ := hd
  have e := (run_mono E (Nat.le_max_left n n') _ h2).symm.trans (run_mono E (Nat.le_max_right n n') _ hd)
  injection e with e
  injection e with e1 e2
  injection e1 with e1
  subst e1
  obtain ⟨b, h5, h6⟩ := delays (L := L) (w := s1.world) E.filename layers c (by rw [hb1]; exact hl) (by rw [hb2]; exact hg) hP1
  refine ⟨_, d, b, rfl, h3, ⟨h5.wf, fun k => by rw [h5.bound, hib]⟩, fun hR st r st' he => ?_⟩
  have hR1 : RunTime L s1.world L.H := ⟨hR.imported, hR.metatools, hR.function, hR.builtins, hR.dicts,
    fun k i f hi => hR.unpickle k i f (by rw [← hib]; exact hi)⟩
  unfold Quotes.Evaluates at he
  rw [h6 _ _ hR1] at he
  obtain ⟨x, st1, h7, h8⟩ := Quotes.bind_ok' he
  obtain ⟨m, h9, h10⟩ := h4 st x st1 h7
  exact ⟨m, x, st1, h9, h10, h8⟩

/-- C54, `with expandrq as name:` with unquotes: `name` is assigned what the expander returns for the list of statements. -/
theorem C54_unquotes_block_partial (L : Lib σ) (E : Env (User σ)) (hE : HasOps L E) (hL : Quotes.Imported L.H)
    (hm : ∀ i, (∀ op, i ≠ L.id op) → ∀ a x, ((E.macros i).fn a).Ends both x x)
    (hh : ∀ i t r n x, (E.hooks i t r n).Ends both x x)
    (layers : Layers) (a : MArgs) (body : List Val) (ret : Ret) (s s' : Expander.St (User σ)) (w : W σ)
    (hw : w = { s.world with locals := quoteBindings L s.world }) (ho : OnlyOps L E w a.tree) (ha : a.synt = .block)
    (h0 : value s.world = 0) (hb : a.tree = .list body) (hne : body ≠ []) (hq : ∀ x ∈ body, Quotable E w x)
    (hs : Source a.tree) (hc : Captures L E w s.world a.tree)
    (hl : Dict.WF s.world.locals) (hg : Dict.WF s.world.globals) (hP : Picklable L s.world)
    (h : Does E (expandRq L E.filename layers a) s (.ok ret) s') :
    ∃ v target code ds b, ret = .val v ∧ a.optionalVars = some target ∧ target.isK .Name = true ∧ v.isK .Assign = true ∧
      v.get? .targets = some (.list [target]) ∧ v.get? .value = some code ∧ ResL L E w 1 body ds ∧ Snapshot s.world b ∧
      (RunTime L s.world L.H →
        ∀ st r st', Quotes.Evaluates L.H (.ofVal code) st r st' → ∃ m x st1, Quotes.Means L.H (.ofVal (.list ds)) st m st1 ∧
          (Quotes.flat m = true → Quotes.filled m = some x) ∧
          callsExpander L L.H E.filename layers b x st1 = some (.ok r, st')) := by
  obtain ⟨n, h⟩ := h
  unfold expandRq at h
  rw [if_pos (.inr ha), run_followed] at h
  obtain ⟨ret1, s1, h1, h2⟩ := bind_ok h
  have hfn : (E.macros (L.id .q)).fn a = quote L E.filename a := by rw [hE .q]; rfl
  obtain ⟨v, target, c, ds, rfl, k1, k2, k3, k4, k5, h3, h4⟩ :=
    C58_block_partial L E hE hL hm hh a body ret1 s s1 n w hw hg ho ha h0 hb hne hq hs hc (by rw [hfn]; exact h1)
  have hb : both s1.world = both s.world :=
    run_ends both_local (fun t => visit_keeps both_local (keeps_both hE hm hh) n t) _ _ _
      (opFn_both L E.filename (fun i => (E.macros i).isName) .q a _) s rfl _ _ h1
  simp only [both, bindings, Prod.mk.injEq] at hb
  obtain ⟨⟨hb1, hb2⟩, -⟩ := hb
  have hib : ∀ k, isbound s1.world k = isbound s.world k := bindings_isbound (by simp only [bindings, hb1, hb2])
  change run (visit E n) (expandQuoted L E.filename layers a v) s1 = _ at h2
  unfold expandQuoted at h2
  have hat : attr v .value = .ok c := by unfold attr; rw [k5]
  rw [if_neg (by rw [ha]; decide), if_pos k3, hat] at h2
  dsimp only at h2
  have hP1 : Picklable L s1.world := fun k i hi => hP k i (by rw [← hib]; exact hi)
  have hd := does_expandR (L := L) (E := E) (filename := E.filename) (layers := layers)
    (a := { a with tree := c, optionalVars := some .none }) (s := s1)
    (.inr ⟨ha, rfl⟩) (by rw [hb1]; exact hl) (by rw [hb2]; exact hg) hP1
  cases v with
  | const => cases k3
  | list => cases k3
  | node cl lo fs =>
    obtain ⟨n', hd⟩ := does_followed (k := setValue (.node cl lo fs)) hd ⟨0, rfl⟩
    have e := (run_mono E (Nat.le_max_left n n') _ h2).symm.trans (run_mono E (Nat.le_max_right n n') _ hd)
    injection e with e
    injection e with e1 e2
    injection e1 with e1
    subst e1
    obtain ⟨b, h5, h6⟩ := delays (L := L) (w := s1.world) E.filename layers c (by rw [hb1]; exact hl) (by rw [hb2]; exact hg) hP1
    refine ⟨_, target, _, ds, b, rfl, k1, k2, by cases cl <;> exact k3, ?_,
      lookup_setF (by rw [show fs.lookup F.value = some c from k5]; rfl), h3, ⟨h5.wf, fun k => by rw [h5.bound, hib]⟩,
      fun hR st r st' he => ?_⟩
    · rw [← k4]; exact lookup_setF_ne (by decide)
    have hR1 : RunTime L s1.world L.H := ⟨hR.imported, hR.metatools, hR.function, hR.builtins, hR.dicts,
      fun k i f hi => hR.unpickle k i f (by rw [← hib]; exact hi)⟩
    unfold Quotes.Evaluates at he
    rw [h6 _ _ hR1] at he
    obtain ⟨x, st1, h7, h8⟩ := Quotes.bind_ok' he
    obtain ⟨m, h9, h10⟩ := h4 st x st1 h7
    exact ⟨m, x, st1, h9, h10, h8⟩

/-- C54: if a macro that is bound cannot be pickled, that is an error when `expandr` is expanded. -/
theorem C54_unpicklable (L : Lib σ) (E : Env υ) (filename : String) (layers : Layers) (a : MArgs) (s : Expander.St υ)
    (ha : a.synt = .expr) (hl : Dict.WF s.world.locals) (hg : Dict.WF s.world.globals) (k : String) (i : Nat) (e : Err)
    (hb : isbound s.world k = some i) (h : L.H.pickle (L.function i) = .error e) :
    ∃ k' i' e', isbound s.world k' = some i' ∧ L.H.pickle (L.function i') = .error e' ∧
      Does E (expandR L filename layers a) s (.error (.py e')) s := by
  obtain ⟨k', i', e', h1, h2, h3⟩ := macroBindings_error hl hg hb h
  exact ⟨k', i', e', h1, h2, does_expandR_error (.inl ha) h3⟩

/-- C54: other kinds of macros. -/
theorem C54_kinds (L : Lib σ) (E : Env (User σ)) (filename : String) (layers : Layers) (a : MArgs)
    (s : Expander.St (User σ)) :
    (a.synt = .decorator ∨ a.synt = .name →
      Does E (expandR L filename layers a) s (.error (.py .syntaxError)) s ∧
      Does E (expandRq L filename layers a) s (.error (.py .syntaxError)) s) ∧
    (a.synt ≠ .name → Does E (macroBindingsMacro L a) s (.error (.py .syntaxError)) s) ∧
    (a.synt = .block → ∀ v, a.optionalVars = some v → v ≠ .none →
      Does E (expandR L filename layers a) s (.error (.py .syntaxError)) s) := by
  refine ⟨fun h => ⟨⟨0, ?_⟩, ⟨0, ?_⟩⟩, fun h => ⟨0, ?_⟩, fun h v hv hn => ⟨0, ?_⟩⟩
  · unfold expandR
    rw [if_neg (by rcases h with h | h <;> simp [h]), if_neg (by rcases h with h | h <;> simp [h]),
      if_neg (by rcases h with h | h <;> simp [h])]
    rfl
  · unfold expandRq
    rw [if_neg (by rcases h with h | h <;> simp [h])]
    rfl
  · unfold macroBindingsMacro
    rw [if_pos h]
    rfl
  · unfold expandR
    rw [if_neg (by simp [hv]), if_pos (by simp [hv, h, hn])]
    rfl

/-- C54 does not hold for `with expandr:`, `with expand1r:`.  The macro returns, but its code has the list of statements in
the place of an expression; wherever it is run, that is a TypeError. -/
theorem C54_block_violated (L : Lib σ) (E : Env υ) (filename : String) (layers : Layers) (a : MArgs) (s : Expander.St υ)
    (ha : a.synt = .block) (hv : a.optionalVars = some .none) (body : List Val) (ht : a.tree = .list body)
    (hl : Dict.WF s.world.locals) (hg : Dict.WF s.world.globals) (hP : Picklable L s.world) :
    ∃ code, Does E (expandR L filename layers a) s (.ok (.val code)) s ∧
      ∀ (τ : Type) (H : Quotes.Host τ), RunTime L s.world H → Quotes.eval H (.ofVal code) = M.throw .typeError := by
  refine ⟨_, does_expandR (.inr ⟨ha, hv⟩) hl hg hP, fun τ H hR => ?_⟩
  rw [eval_expandR hR hP (snapshot hl hg), ht]
  rfl

/-- C54: what `runtime_expand` and `runtime_expand1` do: a new expander with these bindings, in recursive mode or not. -/
theorem C54_runtime (E : Env υ) (layers : Layers) (b : Dict String Nat) (t : Val) (w : World υ) (r : Except Exc Val)
    (w' : World υ) :
    Expands E layers b t w r w' ↔ ∃ s', w' = { s'.world with locals := w.locals } ∧
      ((∃ e, Runs E layers.mode t (init { w with locals := b }) (.error e) s' ∧ r = .error e) ∨
       ∃ x, Runs E layers.mode t (init { w with locals := b }) (.ok (layers.result x)) s' ∧ r = .ok x) := by
  constructor
  · rintro ⟨n, h⟩
    unfold runtimeExpand at h
    cases layers with
    | one =>
      dsimp only at h
      cases hv : visitAs E n .once t (init { w with locals := b }) with
      | none => rw [hv] at h; cases h
      | some p =>
        obtain ⟨v, s'⟩ := p
        rw [hv] at h
        cases v with
        | error e => cases h; exact ⟨s', rfl, .inl ⟨e, ⟨n, hv⟩, rfl⟩⟩
        | ok v =>
          obtain ⟨x, rfl⟩ := once_done hv
          cases h
          exact ⟨s', rfl, .inr ⟨x, ⟨n, hv⟩, rfl⟩⟩
    | all =>
      dsimp only at h
      cases hv : visitAs E n .recursively t (init { w with locals := b }) with
      | none => rw [hv] at h; cases h
      | some p =>
        obtain ⟨v, s'⟩ := p
        rw [hv] at h
        cases h
        cases r with
        | error e => exact ⟨s', rfl, .inl ⟨e, ⟨n, hv⟩, rfl⟩⟩
        | ok v => exact ⟨s', rfl, .inr ⟨v, ⟨n, hv⟩, rfl⟩⟩
  · rintro ⟨s', rfl, ⟨e, ⟨n, h⟩, rfl⟩ | ⟨x, ⟨n, h⟩, rfl⟩⟩
    · refine ⟨n, ?_⟩
      unfold runtimeExpand
      cases layers <;> (dsimp only; dsimp only [Layers.mode] at h; rw [h])
    · refine ⟨n, ?_⟩
      unfold runtimeExpand
      cases layers with
      | one => dsimp only; dsimp only [Layers.mode, Layers.result] at h; rw [h]; rfl
      | all => dsimp only; dsimp only [Layers.mode, Layers.result] at h; rw [h]

/-- C54: the macros of that expander are those that were bound at the use site `w0`, and the global bindings of the process
for other names. -/
theorem C54_bound (w0 w : World υ) (b : Dict String Nat) (h : Snapshot w0 b) (k : String) :
    isbound { w with locals := b } k = (isbound w0 k).or (w.globals.get k) := by
  unfold isbound
  rw [show ({ w with locals := b } : World υ).locals = b from rfl, h.bound]
  rfl

/-- C54: when `runtime_expand` returns, no invocations of macros that were bound at the use site are left, under the
conditions of C18. -/
theorem C54_complete_partial (E : Env υ) (w0 w w' : World υ) (b : Dict String Nat) (hb : Snapshot w0 b) (t r : Val)
    (hE : E.Keeps bindings) (ht : t.isTree = true) (hg : Grammatical t) (h : Expands E .all b t w (.ok r) w')
    (hout : ∀ s', Runs E .recursively t (init { w with locals := b }) (.ok r) s' → ∀ e ∈ s'.log, e.depth = 0 →
      ∀ v, Returns E { w with locals := b } e v → GoodExpansion E { w with locals := b } e v) :
    NoInvocations E { w with locals := b } r ∧ ∀ k i, isbound w0 k = some i → isbound { w with locals := b } k = some i := by
  obtain ⟨s', -, ⟨e, -, h2⟩ | ⟨x, h1, h2⟩⟩ := (C54_runtime E .all b t w _ w').1 h
  · cases h2
  · cases h2
    exact ⟨(C18_recursive_partial E _ t r s' hE ht hg h1 (hout s' h1)).1,
      fun k i hk => by rw [C54_bound w0 w b hb, hk]; rfl⟩

/-- `r[x]` expands to `m[x]`, and that to `x`. -/
example : NoInvocations Expander.Ex.env Expander.Ex.world (name "x") := by
  have hs : Snapshot { Expander.Ex.world with globals := [] } Expander.Ex.world.locals :=
    ⟨by unfold Dict.WF; decide, fun k => by
      show _ = ((Dict.get Expander.Ex.world.locals k).or (Dict.get ([] : Dict String Nat) k))
      cases Dict.get Expander.Ex.world.locals k <;> rfl⟩
  refine (C54_complete_partial Expander.Ex.env { Expander.Ex.world with globals := [] } Expander.Ex.world Expander.Ex.world _ hs
    (Expander.Ex.sub (name "r") (name "x")) (name "x") ⟨?_, fun _ _ _ _ _ => rfl⟩ (by decide +kernel)
    (grammatical_of (by decide +kernel)) ⟨10, rfl⟩ ?_).1
  · intro i a x
    rcases i with _ | _ | _ | _ | _ | _ | _ | _ | i <;> first | rfl | (rintro (_ | _) <;> rfl)
  · rintro s' ⟨n, hn⟩
    have h10 : visitAs Expander.Ex.env 10 .recursively (Expander.Ex.sub (name "r") (name "x")) (init Expander.Ex.world) = some (.ok (name "x"), _) := rfl
    obtain ⟨-, rfl⟩ := visitAs_det hn h10
    intro e he _ v ⟨n, s, s1, ret, _, hr, hc⟩
    rcases List.mem_cons.mp he with rfl | he
    · cases hr; cases hc
      refine ⟨grammatical_of (by decide +kernel), ?_, by intro h; cases h⟩
      intro x hx
      cases List.mem_singleton.mp hx
      rintro ⟨-, h⟩
      exact h (.expr rfl rfl ⟨"m", [], 0, .plain rfl rfl, by decide, rfl, .inl rfl⟩)
    · cases List.mem_singleton.mp he
      cases hr; cases hc
      refine ⟨grammatical_of (by decide +kernel), ?_, by intro h; cases h⟩
      intro x hx
      cases List.mem_singleton.mp hx
      rintro ⟨⟨k, as, id, hk, -, hb, -⟩, -⟩
      cases hk with
      | plain _ h => cases h; cases hb
      | bracket h => cases h
      | brackets h => cases h
      | parens h => cases h

/-! Concrete cases: `m[y]`, where `m[e]` expands to `e`. -/
section
open QuoteOps.Ex (env world)

open Quotes.Ex (host)
open QuoteOps.Ex (lib)

private theorem picklable : Picklable lib (world 0) := fun _ i _ => ⟨[i], rfl⟩

private theorem mapM_some (items : List (String × Obj)) :
    ((items.map fun p => (some (Obj.str p.1), p.2)).mapM fun (p : Option Obj × Obj) => p.1.map fun k => (k, p.2)) =
      some (items.map fun p => (Obj.str p.1, p.2)) := by
  induction items with
  | nil => rfl
  | cons p items ih => rw [List.map_cons, List.mapM_cons, ih]; rfl

private theorem runTime : RunTime lib (world 0) host where
  imported := rfl
  metatools := rfl
  function _ := rfl
  builtins := ⟨rfl, .ext 2, .dict [] [], rfl, by simp, rfl⟩
  dicts items _ := by
    show Option.elim (List.mapM (fun (p : Option Obj × Obj) => p.1.map fun k => (k, p.2)) _) _ _ = _
    rw [mapM_some]
    simp only [Option.elim, List.map_map]
    rfl
  unpickle k i f _ h := by
    have : f = [i] := by cases h; rfl
    subst this; rfl

private theorem wfL : Dict.WF (world 0).locals := by unfold Dict.WF; decide
private theorem wfG : Dict.WF (world 0).globals := by unfold Dict.WF; decide

private def args (synt : Syn) (t : Val) : MArgs := ⟨synt, t, some [], if synt = .block then some .none else none, t⟩

/-- `macro_bindings` -/
example : ∃ code b, Does env (macroBindingsMacro lib (args .name (name "macro_bindings"))) (init (world 0)) (.ok (.val code)) (init (world 0)) ∧
    Snapshot (world 0) b ∧ Quotes.eval host (.ofVal code) = pure (dictOf lib b) := by
  obtain ⟨code, b, h1, h2, h3⟩ := C54_bindings lib env (args .name (name "macro_bindings")) (init (world 0)) rfl wfL wfG picklable
  exact ⟨code, b, h1, h2, h3 _ _ runTime⟩

private def my : Val := QuoteOps.Ex.op "m" (name "y")

private theorem plain_my : Plain lib env (world 0) my := by
  refine ⟨rfl, by decide +kernel, by decide +kernel, fun u hu => ?_, fun w2 hs u hu => ?_⟩
  · cases hua : u.isAST with
    | true =>
      have h4 : (preorder my).all fieldsOk = true := by decide +kernel
      exact List.all_eq_true.mp h4 u (reach_mem_preorder hu hua)
    | false => cases u with
      | node => cases hua
      | _ => rfl
  · refine noInvocation_names (fun k hk => ?_) u hu
    have h5 : ((preorder my).flatMap nameOf).all (fun k => k = "m" ∨ k = "y") = true := by decide +kernel
    have hk := of_decide_eq_true (List.all_eq_true.mp h5 k hk)
    cases hb : isbound w2 k with
    | none => rfl
    | some f =>
      rcases (hs.bound _ _).mp hb with ⟨h, hf⟩ | ⟨-, h⟩
      · rcases hk with rfl | rfl
        · cases h; revert hf; decide
        · cases h
      · cases h

/-- `expandrq[m[y]]`: `m[y]` is expanded at run time, and `m` is the macro 7 then. -/
example : ∃ code b, Does env (expandRq lib "a.py" .all (args .expr my)) (init (world 0)) (.ok (.val code)) (init (world 0)) ∧
    b.get "m" = some 7 ∧
    Quotes.eval host (.ofVal code) = pure (.tuple [dictOf lib b, .str "a.py", Quotes.noLoc (.ofVal my)]) := by
  obtain ⟨code, b, h1, h2, h3⟩ := C54_value_partial lib rfl env "a.py" .all (args .expr my) (init (world 0)) rfl rfl wfL wfG
    plain_my (by decide +kernel) (by decide +kernel) picklable
  exact ⟨code, b, h1, by rw [h2.bound]; rfl, h3 runTime⟩

/-- `expandrq[[y, u[three], a[lst], h[value]]]`: the macro returns code, and what is expanded at run time (here `runtime_expand`
returns its arguments) is `[y, 3, a, b, …]`. -/
example : HasOps lib env ∧ Quotes.Imported lib.H ∧ OnlyOps lib env (QuoteOps.Ex.inner 0) QuoteOps.Ex.display ∧
    Quotable env (QuoteOps.Ex.inner 0) QuoteOps.Ex.display ∧ Source QuoteOps.Ex.display ∧
    Captures lib env (QuoteOps.Ex.inner 0) (world 0) QuoteOps.Ex.display ∧ Picklable lib (world 0) ∧ RunTime lib (world 0) host ∧
    (QuoteOps.Ex.valueOf (run (visit env 20) (expandRq lib "a.py" .all (args .expr QuoteOps.Ex.display)) (init (world 0)))).map
      (fun r => r.toOption.map fun
        | .tuple [_, _, t] => (t.get? .elts).map fun
          | .list xs => xs.take 4
          | _ => []
        | _ => none) =
      some (some (some [Quotes.Ex.name "y", Quotes.constantNode (.int 3), Quotes.Ex.name "a", Quotes.Ex.name "b"])) :=
  ⟨QuoteOps.Ex.hasOps, rfl, QuoteOps.Ex.onlyOps 0 _, QuoteOps.Ex.quotable_display 0, QuoteOps.Ex.source_display,
    QuoteOps.Ex.captures_display 0, picklable, runTime, by decide +kernel⟩

/-- `with expandrq as out:`, and two statements with unquotes. -/
example : (∀ x ∈ [QuoteOps.Ex.stmt QuoteOps.Ex.display, QuoteOps.Ex.stmt QuoteOps.Ex.display],
      Quotable env (QuoteOps.Ex.inner 0) x) ∧
    Source (.list [QuoteOps.Ex.stmt QuoteOps.Ex.display, QuoteOps.Ex.stmt QuoteOps.Ex.display]) ∧
    Captures lib env (QuoteOps.Ex.inner 0) (world 0) (.list [QuoteOps.Ex.stmt QuoteOps.Ex.display, QuoteOps.Ex.stmt QuoteOps.Ex.display]) ∧
    ((run (visit env 20) (expandRq lib "a.py" .all
      ⟨.block, .list [QuoteOps.Ex.stmt QuoteOps.Ex.display, QuoteOps.Ex.stmt QuoteOps.Ex.display], some [], some (name "out"), mk .With []⟩)
      (init (world 0))).map fun x => x.1.toOption.isSome) = some true :=
  ⟨by simp [QuoteOps.Ex.quotable_stmt], QuoteOps.Ex.source_stmts, QuoteOps.Ex.captures_stmts 0, by decide +kernel⟩

/-- `expandr[x]`, and a macro that cannot be pickled. -/
example : (∃ code, Does env (expandR lib "a.py" .one (args .expr (name "x"))) (init (world 0)) (.ok (.val code)) (init (world 0)) ∧
      Delays lib "a.py" .one (world 0) (name "x") code) ∧
    Does env (expandR { lib with function := fun _ => .none } "a.py" .one (args .expr (name "x"))) (init (world 0))
      (.error (.py .typeError)) (init (world 0)) :=
  ⟨C54_expandr lib env "a.py" .one (args .expr (name "x")) (init (world 0)) rfl wfL wfG picklable, ⟨0, rfl⟩⟩

/-- `with expandrq as x: m[y]` -/
example : ∃ target code, Does env (expandRq lib "a.py" .all ⟨.block, .list [mk .Expr [(.value, my)]], some [], some (name "x"), my⟩)
      (init (world 0)) (.ok (.val (mk .Assign [(.targets, target), (.value, code), (.type_comment, .none)]))) (init (world 0)) ∧
    Val.isK .Call code = true := ⟨.list [name "x"], _, ⟨20, rfl⟩, rfl⟩

/-- `with expandr: y`; `expandr` as a decorator -/
example : (∃ code, Does env (expandR lib "a.py" .all (args .block (.list [name "y"]))) (init (world 0)) (.ok (.val code)) (init (world 0)) ∧
      Quotes.eval host (.ofVal code) = M.throw .typeError) ∧
    Does env (expandR lib "a.py" .all (args .decorator (name "y"))) (init (world 0)) (.error (.py .syntaxError)) (init (world 0)) := by
  obtain ⟨code, h1, h2⟩ := C54_block_violated lib env "a.py" .all (args .block (.list [name "y"])) (init (world 0)) rfl rfl _ rfl
    wfL wfG picklable
  exact ⟨⟨code, h1, h2 _ _ runTime⟩, ⟨0, rfl⟩⟩

/-- At run time, elsewhere: one layer of `m[m[y]]`. -/
example : Expands env .one [("m", 7)] (QuoteOps.Ex.op "m" my) { world 0 with locals := [] } (.ok my) { world 0 with locals := [] } ∧
    Expands env .all [("m", 7)] (QuoteOps.Ex.op "m" my) { world 0 with locals := [] } (.ok (name "y")) { world 0 with locals := [] } :=
  ⟨⟨10, rfl⟩, ⟨10, rfl⟩⟩

end
end Mcpyrate
