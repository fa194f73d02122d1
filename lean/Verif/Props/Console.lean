import Verif.Lemmas.Console
import Verif.Lemmas.ConsoleFinish
import Verif.Spec.ConsoleExample
import Verif.Props.ExpanderErrors
/-
C61: sessions of the interactive console (`mcpyrate.repl.console.MacroConsole`).  The full statement: the macro-imports of
an input hold from that input on, the latest one counts; an input that fails is shown to the user, and the session goes on;
an input is run once, after it has been expanded.  That the session goes on fails: see `C61_comment_violated`,
`C61_qualname_violated` and `C61_import_violated`.  `C61_goes_on_partial` says in which cases an ordinary input ends it.
-/
namespace Mcpyrate
open Py Expander GetMacros Compiler Modules RunCode Console

variable {υ μ Code : Type}

/-- C61: the outcome is determined by the input and the session. -/
theorem C61_deterministic (K : Console.Tools υ μ Code) (source : Str) (s s1 s2 : Session υ) (r1 r2 : Except Exc Bool)
    (h1 : Answers K source s r1 s1) (h2 : Answers K source s r2 s2) : r1 = r2 ∧ s1 = s2 := h1.det h2

/-- C61: an ordinary input is parsed; its macro-imports are run, with the variables of the session as `__self__`; then it
is expanded, with the new bindings, and compiled.  If that raises, the exception is shown, or leaves the console, and
nothing is run; the new bindings are kept if all macro-imports succeeded.  Otherwise the code is run, once, and the
functions of the macros are imported if there were macro-imports. -/
theorem C61_answer (K : Console.Tools υ μ Code) (hP : ParserOk K) (hM : K.metadata.WF) (hk : KeepRegistry K.post)
    (source : Str) (ho : Ordinary K source) (s s' : Session υ) (r : Except Exc Bool) (h : Answers K source s r s') :
    ∃ b, Answer K source s b r s' := answer_spec hP hM hk ho h

/-- C61: if the expansion of the input finishes, or raises, and so does all code, then there is an outcome.  By
`C61_answer` it is one of those above, and by `C61_deterministic` the only one. -/
theorem C61_finishes (K : Console.Tools υ μ Code) (hP : ParserOk K) (hM : K.metadata.WF) (hk : KeepRegistry K.post)
    (source : Str) (ho : Ordinary K source) (s : Session υ)
    (hR : ∀ t b p l, Imported K source s.state t b p → Added s.bindings b l → ∃ r l' p', Ran K l t p r l' p')
    (hC : ∀ c x, K.runcode c x ≠ none) : ∃ r s', Answers K source s r s' :=
  answers_finishes hP hM hk ho hR hC

/-- C61: an input that cannot be parsed needs no such assumption, neither does one with a macro-import that raises. -/
theorem C61_finishes_early (K : Console.Tools υ μ Code) (hP : ParserOk K) (hM : K.metadata.WF) (hk : KeepRegistry K.post)
    (source : Str) (ho : Ordinary K source) (s : Session υ) (hn : ∀ t b p, ¬ Imported K source s.state t b p) :
    ∃ e p, NotImported K source s.state e p ∧
      ((∃ w, Shows (.py e) w ∧ Answers K source s (.ok false) ⟨s.bindings, s.changed, p, s.output ++ [w]⟩) ∨
       (∀ w, ¬ Shows (.py e) w) ∧ Answers K source s (.error (.py e)) ⟨s.bindings, s.changed, p, s.output⟩) := by
  obtain ⟨n, r1, s1, h1⟩ := translate_finishes (K := K) hP hM hk (s := s) (source := source)
    fun t b p _ h => absurd h (hn t b p)
  obtain ⟨b, ht⟩ := translate_spec hP hM hk h1
  cases ht with
  | raised h => exact absurd h (hn _ _ _)
  | nobody h => exact absurd h (hn _ _ _)
  | compiled h => exact absurd h (hn _ _ _)
  | @notImported e p h =>
    refine ⟨e, p, h, ?_⟩
    have hr : ∀ r s', (match caught (.py e) with
        | some w => (do M.modify fun s : Session υ => { s with output := s.output ++ [w] }; return false : C υ Bool)
        | none => M.throw (.py e)) ⟨s.bindings, s.changed, p, s.output⟩ = some (r, s') → Answers K source s r s' :=
      fun r s' h => ⟨n, by rw [runsource_plain ho.1, if_neg ho.2, bind_val (attempt_some h1)]; exact h⟩
    cases hc : caught (.py e) with
    | some w => exact .inl ⟨w, caught_iff.1 hc, hr _ _ (by rw [hc]; rfl)⟩
    | none => exact .inr ⟨caught_none.1 hc, hr _ _ (by rw [hc]; rfl)⟩

/-- C61: an incomplete input asks for more, and nothing happens. -/
theorem C61_incomplete (K : Console.Tools υ μ Code) (source : Str) (hq : ∀ a, source ≠ a ++ ['?'])
    (hi : K.verdict source = .incomplete) (s s' : Session υ) (r : Except Exc Bool) :
    Answers K source s r s' ↔ r = .ok true ∧ s' = s := by
  have : ∀ n, runsource K n source s = some (.ok true, s) := fun n => by rw [runsource_plain hq, if_pos hi]; rfl
  unfold Answers
  simp only [this]
  constructor
  · rintro ⟨_, h⟩; cases h; exact ⟨rfl, rfl⟩
  · rintro ⟨rfl, rfl⟩; exact ⟨0, rfl⟩

/-- C61: `macros?` shows the local bindings, and does nothing else.  (See C65 for the text.) -/
theorem C61_macros (K : Console.Tools υ μ Code) (s s' : Session υ) (r : Except Exc Bool) :
    Answers K "macros?".toList s r s' ↔ r = .ok false ∧
      s' = ⟨s.bindings, s.changed, s.state, s.output ++ [.bindings s.bindings]⟩ := by
  unfold Answers
  simp only [runsource_macros]
  constructor
  · rintro ⟨_, h⟩; cases h; exact ⟨rfl, rfl⟩
  · rintro ⟨rfl, rfl⟩; exact ⟨0, rfl⟩

/-- C61: `obj?` and `obj??` run `doc(obj)` and `sourcecode(obj)`, without expanding macros. -/
theorem C61_object (K : Console.Tools υ μ Code) (hP : ParserOk K) (a : Str) (s s' : Session υ) (r : Except Exc Bool) :
    (Answers K (a ++ ['?', '?']) s r s' ↔ ∃ r0,
      Executes K ("mcpyrate.repl.utils.sourcecode(".toList ++ a ++ [')']) s r0 s' ∧ r = r0.map fun _ => false) ∧
    (a ≠ "macros".toList → (∀ c, a ≠ c ++ ['?']) → (Answers K (a ++ ['?']) s r s' ↔ ∃ r0,
      Executes K ("mcpyrate.repl.utils.doc(".toList ++ a ++ [')']) s r0 s' ∧ r = r0.map fun _ => false)) := by
  constructor
  · unfold Answers
    simp only [runsource_sourcecode, then_false, internal_iff hP]
    exact ⟨fun ⟨_, h⟩ => h, fun h => ⟨0, h⟩⟩
  · intro h1 h2
    unfold Answers
    simp only [runsource_doc h1 h2, then_false, internal_iff hP]
    exact ⟨fun ⟨_, h⟩ => h, fun h => ⟨0, h⟩⟩

/-- C61: every session can be seen as a sequence of inputs with the bindings of their macro-imports. -/
theorem C61_inputs (K : Console.Tools υ μ Code) (hP : ParserOk K) (hM : K.metadata.WF) (hk : KeepRegistry K.post)
    (sources : List Str) (s s' : Session υ) (h : Goes K s sources s') :
    ∃ bs, bs.map (·.1) = sources ∧ Inputs K s bs s' := by
  induction h with
  | nil => exact ⟨[], rfl, .nil⟩
  | @cons source sources s x s1 s' ha _ ih =>
    obtain ⟨bs, rfl, hi⟩ := ih
    by_cases ho : Ordinary K source
    · obtain ⟨b, hb⟩ := answer_spec hP hM hk ho ha
      exact ⟨(source, b) :: bs, rfl, .cons ha (.inl ⟨ho, hb⟩) hi⟩
    · exact ⟨(source, []) :: bs, rfl, .cons ha (.inr ⟨ho, rfl⟩) hi⟩

/-- C61: after any session, a name is bound to what the last macro-import of that name gave; if there was none, to what it
was bound to in the beginning. -/
theorem C61_history (K : Console.Tools υ μ Code) (hP : ParserOk K) (hS : Stable K) (bs : List (Str × Dict String Nat))
    (s s' : Session υ) (h : Inputs K s bs s') (k : String) (f : Nat) :
    s'.bindings.get k = some f ↔
      (∃ before x after, bs = before ++ x :: after ∧ x.2.get k = some f ∧ ∀ y ∈ after, y.2.get k = none) ∨
      (s.bindings.get k = some f ∧ ∀ y ∈ bs, y.2.get k = none) := by
  induction h with
  | nil =>
    constructor
    · intro h; exact .inr ⟨h, by simp⟩
    · rintro (⟨before, x, after, h, _⟩ | ⟨h, _⟩)
      · cases before <;> cases h
      · exact h
  | @cons source b rest s x s1 s' ha hc _ ih =>
    have hadd : Added s.bindings b s1.bindings := by
      rcases hc with ⟨_, hc⟩ | ⟨ho, rfl⟩
      · exact hc.bindings hS
      · rw [other_bindings hP hS ho ha]
        exact fun k => by simp [Dict.get_nil]
    rw [ih, hadd k]
    constructor
    · rintro (⟨before, y, after, rfl, h1, h2⟩ | ⟨h1, h2⟩)
      · exact .inl ⟨(source, b) :: before, y, after, rfl, h1, h2⟩
      · cases hb : b.get k with
        | some g =>
          rw [hb] at h1
          exact .inl ⟨[], (source, b), rest, rfl, hb.trans h1, h2⟩
        | none =>
          rw [hb] at h1
          refine .inr ⟨h1, fun y hy => ?_⟩
          rcases List.mem_cons.1 hy with rfl | hy
          · exact hb
          · exact h2 y hy
    · rintro (⟨before, y, after, he, h1, h2⟩ | ⟨h1, h2⟩)
      · cases before with
        | nil =>
          cases he
          exact .inr ⟨by rw [show b.get k = some f from h1]; rfl, h2⟩
        | cons z before =>
          cases he
          exact .inl ⟨before, y, after, rfl, h1, h2⟩
      · refine .inr ⟨?_, fun y hy => h2 y (by simp [hy])⟩
        rw [show b.get k = none from h2 (source, b) (by simp)]
        exact h1

/-- C61: `from __self__ import macros, k` binds the value that the variable `k` of the session has at that time. -/
theorem C61_self (K : Console.Tools υ μ Code) (hL : Linked K) (source : Str) (p p2 : State υ) (t t' : Val)
    (b : Dict String Nat) (i : Val) (k : String) (hp : K.parse source = .ok t)
    (hi : FindMacros.macroImports (Dialects.stmts t) = [i]) (hself : IsSelfImport k i)
    (hmeta : K.metadata.get k.toList = none) (h : Imported K source p t' b p2) :
    ∃ f, (p.user.1.attrs K.locals).get k.toList = some (.obj f) ∧ b.get k = some f := by
  cases h with
  | @intro t0 p1 rs _ _ out h1 h2 h3 h4 h5 =>
    rw [hp] at h1
    cases h1
    rw [hi] at h3
    obtain ⟨m, hm, -, hmods, -, -, hattr⟩ := h2
    cases h3 with
    | @cons _ s1 _ _ _ a d rs hg hr =>
      cases hr
      obtain ⟨g1, g2, a0, b0, g3, g4, g5⟩ := hself
      obtain ⟨x, hx, hxa⟩ := hL p1 m (by rw [hmods]; exact hm)
      have hlevel : levelTruthy i = false := by unfold levelTruthy; rw [g2]; rfl
      have hpk : packageOf K.interp (options K) i = .ok none := by unfold packageOf; rw [hlevel]; rfl
      have hfind : GetMacros.findModule K.interp (options K) i none p1 = (.ok ("__mcpyrate_repl_self__", x), p1) := by
        unfold GetMacros.findModule
        rw [g1]
        simp only [Option.getD_some, Val.str, if_true, hlevel]
        simp only [options, hx]
        rfl
      have hal : aliasOf b0 = .ok (k, none) := by unfold aliasOf; rw [g4, g5]; rfl
      unfold getMacros at hg
      rw [hpk] at hg
      dsimp only at hg
      rw [hfind] at hg
      dsimp only at hg
      unfold bindAll at hg
      rw [g3] at hg
      simp only [List.drop_succ_cons, List.drop_zero, bindNames, hal] at hg
      cases hat : K.interp.attr p1 x k with
      | none => rw [hat] at hg; simp [options] at hg
      | some f =>
        rw [hat] at hg
        have hf := (hxa k f).1 hat
        rw [hattr, hmeta] at hf
        split at hf
        · cases hf
        · refine ⟨f, hf, (h4.2 k f).2 ⟨[], d, [], rfl, ?_, by simp⟩⟩
          cases hcall : K.interp.callable f with
          | false => simp [options, hcall] at hg
          | true =>
            simp [options, hcall, key] at hg
            rw [← hg.1.2, Dict.get_set, if_pos rfl]

/-- C61, partly: the session goes on after an ordinary input, unless the exception is of a kind that is not shown, or
there is a macro whose function cannot be imported by its qualified name. -/
theorem C61_goes_on_partial (K : Console.Tools υ μ Code) (hP : ParserOk K) (hM : K.metadata.WF) (hk : KeepRegistry K.post)
    (hS : Stable K) (hc : Stays K) (source : Str) (ho : Ordinary K source) (s s' : Session υ)
    (r : Except Exc Bool) (h : Answers K source s r s') :
    r = .ok false ∨ (∃ b e, r = .error e ∧ Translated K source s b (.error e) s' ∧ ∀ w, ¬ Shows e w) ∨
    ∃ k f e, r = .error (.py e) ∧ Bound s' k f ∧ Unimportable K k f e := by
  have hre : ∀ ks (s0 s1 : Session υ) r0, Reimports K ks s0 r0 s1 → (∀ k ∈ ks, ∃ f, Bound s0 k f) →
      r0 = .ok () ∨ ∃ k f e, r0 = .error (.py e) ∧ Bound s1 k f ∧ Unimportable K k f e := by
    intro ks s0 s1 r0 hr
    have hglob : ∀ {source} {s0 s1 : Session υ} {r1}, Executes K source s0 r1 s1 →
        s1.state.globals = s0.state.globals := by
      intro source s0 s1 r1 he
      cases he with
      | unparsable _ => rfl
      | uncompiled _ _ _ => rfl
      | ran _ _ _ h => exact (hc _ _ _ _ _ _ h).2
    induction hr with
    | nil => intro _; exact .inl rfl
    | @gone k _ _ hn => intro hb; obtain ⟨f, hf⟩ := hb k (by simp); exact absurd hf (hn f)
    | skip _ _ _ ih => intro hb; exact ih fun k hk => hb k (by simp [hk])
    | imported _ _ he _ _ ih =>
      intro hb
      refine ih fun k hk => ?_
      obtain ⟨f, hf⟩ := hb k (by simp [hk])
      refine ⟨f, ?_⟩
      unfold Bound
      rw [he.bindings hS, hglob he]
      exact hf
    | @failed k _ _ f m q e _ hb hor he _ _ =>
      intro _
      refine .inr ?_
      cases he with
      | @unparsable e h1 => exact ⟨k, f, e, rfl, hb, m, q, hor, .inl h1⟩
      | @uncompiled t body e h1 h2 h3 => exact ⟨k, f, e, rfl, hb, m, q, hor, .inr ⟨t, body, h1, h2, h3⟩⟩
      | ran _ _ _ h => cases (hc _ _ _ _ _ _ h).1
  obtain ⟨b, ha⟩ := answer_spec hP hM hk ho h
  cases ha with
  | shown _ _ => exact .inl rfl
  | raised ht hn => exact .inr (.inl ⟨b, _, rfl, ht, hn⟩)
  | exits _ hr => cases (hc _ _ _ _ _ _ hr).1
  | ran _ _ _ => exact .inl rfl
  | unrefreshed _ _ hf =>
    cases hf with
    | names _ hks _ hr =>
      rcases hre _ _ _ _ hr fun k hk => (hks k).1 hk with h | ⟨k, f, e, h1, h2, h3⟩
      · cases h
      · cases h1
        exact .inr (.inr ⟨k, f, e, rfl, h2, h3⟩)

/-- C61: an exception that leaves the expander is one that is shown, unless it is not an `Exception`, or an error of the
expander itself outside of any macro. -/
theorem C61_macro_error (K : Console.Tools υ μ Code) (t : Val) (s0 s1 : Expander.St (List Nat × (Sys × υ))) (e : Exc)
    (h : Expander.Runs K.env .current t s0 (.error e) s1) : Interrupt e ∨ (∃ x, e = .py x) ∨ Shows e (.syntaxError e) := by
  rcases C20_surface K.env .current t s0 s1 e h with h | h | ⟨m, c, rfl⟩
  · exact .inl h
  · exact .inr (.inl h)
  · exact .inr (.inr .application)

/-! The console of the examples meets the hypotheses. -/

private theorem table_parsed : ∀ x ∈ Console.Ex.table, FindMacros.Parsed x.2 := by
  have key : ∀ x ∈ Console.Ex.table, ∀ t ∈ x.2,
      (t.isK .ImportFrom = false ∨ ∃ m ns, t = GetMacros.Ex.absolute m ns) := by
    simp only [Console.Ex.table, List.forall_mem_cons, List.not_mem_nil, false_implies, implies_true, and_true]
    refine ⟨.inr ⟨_, _, rfl⟩, .inr ⟨_, _, rfl⟩, .inr ⟨_, _, rfl⟩, ⟨.inr ⟨_, _, rfl⟩, .inl rfl⟩, ⟨.inr ⟨_, _, rfl⟩, .inl rfl⟩,
      .inr ⟨_, _, rfl⟩, .inr ⟨_, _, rfl⟩, .inr ⟨_, _, rfl⟩, .inl rfl, .inl rfl, .inl rfl, .inl rfl, .inl rfl⟩
  intro x hx t ht
  rcases key x hx t ht with h | ⟨m, ns, rfl⟩
  · exact ⟨fun h' => (by rw [h] at h'; cases h'), fun h' => (by rw [h] at h'; cases h')⟩
  · exact ⟨fun _ => ⟨_, _, _, rfl, rfl⟩, fun _ h => (by cases h)⟩

private theorem ex_parser : ParserOk Console.Ex.console := by
  intro source t h
  change (match Console.Ex.table.find? fun x => x.1.toList == source with
    | some x => Except.ok (Compiler.Ex.module_ x.2) | none => (.error Err.syntaxError : Except Err Val)) = .ok t at h
  cases hf : Console.Ex.table.find? fun x => x.1.toList == source with
  | none => rw [hf] at h; cases h
  | some x =>
    rw [hf] at h
    cases h
    exact ⟨x.2, rfl, table_parsed x (List.mem_of_find?_eq_some hf)⟩

private theorem ex_stable : Stable Console.Ex.console := by
  refine ⟨⟨fun i a x => ?_, fun _ _ _ _ _ => rfl⟩, fun c b p r b' p' h => by cases h; rfl⟩
  change Prog.Ends _ x x (if i = 1 then _ else _)
  split <;> rfl

example : ParserOk Console.Ex.console ∧ Stable Console.Ex.console ∧ Console.Ex.console.metadata.WF ∧
    KeepRegistry Console.Ex.console.post ∧ Stays Console.Ex.console :=
  ⟨ex_parser, ex_stable, by unfold Dict.WF; decide, fun _ _ _ _ _ h => by cases h; rfl,
    fun c b p r b' p' h => by cases h; exact ⟨rfl, rfl⟩⟩

/-- A session: a macro-import that holds in the same input; one of a module that is not there; a macro that fails, but
stays bound; an incomplete input; another macro-import of the same name; then `f` is the macro that raises. -/
example : (Console.Ex.play 20 ["from lib import macros, f; f[x]", "from nolib import macros, f",
      "from lib import macros, g; g[x]", "if x:", "from lib import macros, g as f", "f[x]"] Console.Ex.start).map
        (fun y => (y.1, y.2.bindings, y.2.state.user.2, y.2.output.length)) =
    some ([.ok false, .ok false, .ok false, .ok true, .ok false, .ok false], [("f", 2), ("g", 2)], 3, 3) := by
  decide +kernel
/-- The variable `k` as a macro; the bindings are shown; `f?` runs code. -/
example : Console.Ex.view (Console.Ex.play 20 ["from __self__ import macros, k", "macros?", "f?"] Console.Ex.start) =
    some ([.ok false, .ok false, .ok false], [("k", 1)], 3, [.bindings [("k", 1)]]) := by decide +kernel

example : Linked Console.Ex.console := by
  intro p m hm
  refine ⟨"__mcpyrate_repl_self__", ?_, fun k f => ?_⟩
  · change Option.bind (p.user.1.modules.get _) _ = _
    rw [hm]
    rfl
  · simp only [Console.Ex.console, if_true, hm]
    cases (p.user.1.attrs m).get k.toList with
    | none => simp
    | some o => cases o <;> simp
example : Console.IsSelfImport "k" (GetMacros.Ex.absolute "__self__" [("k", none)]) := ⟨rfl, rfl, _, _, rfl, rfl, rfl⟩
example : Ordinary Console.Ex.console "f[x]".toList := by
  refine ⟨fun a h => ?_, by decide +kernel⟩
  have := congrArg List.getLast? h
  rw [List.getLast?_append] at this
  exact absurd (show some ']' = some '?' from this) (by decide)

/-- The expansion of `f[x]` finishes, in a session without macros. -/
example (t : Val) (b : Dict String Nat) (p : State Nat) (l : Dict String Nat)
    (h : Imported Console.Ex.console "f[x]".toList Console.Ex.start.state t b p) (ha : Added Console.Ex.start.bindings b l) :
    ∃ r l' p', Ran Console.Ex.console l t p r l' p' := by
  obtain ⟨hp, hs, hr, hu, _⟩ := h
  rename_i t0 p1 rs out _
  obtain ⟨_, _, ⟨hg, hreg, _⟩, _⟩ := hs
  have ht : t0 = Compiler.Ex.module_ [Console.Ex.use "f"] := by
    have : Console.Ex.console.parse "f[x]".toList = .ok (Compiler.Ex.module_ [Console.Ex.use "f"]) := by rfl
    rw [this] at hp
    cases hp
    rfl
  subst ht
  have hm : FindMacros.macroImports (Dialects.stmts (Compiler.Ex.module_ [Console.Ex.use "f"])) = [] := by rfl
  rw [hm] at hr
  cases hr
  have hl : l = [] := by
    cases l with
    | nil => rfl
    | cons x l =>
      have h1 := ha x.1
      cases hb : b.get x.1 with
      | none => rw [hb, Dict.get_cons, if_pos rfl] at h1; cases h1
      | some f => obtain ⟨c, d, e, h2, _⟩ := (hu.2 _ _).1 hb; simp at h2
  subst hl
  have hx := (C15_no_bindings Console.Ex.console.env .current (withField (Compiler.Ex.module_ [Console.Ex.use "f"]) .body
    (.list out)) { recursive := true, hook := none, world := ⟨[], p.globals, (p.registry, p.user)⟩, depth := 0, log := [] }
    rfl hg _ _).2 ⟨rfl, rfl⟩
  have hreg : p.registry = [] := hreg
  cases hd : (Markers.deleteMarkers Console.Ex.console.isOwn (withField (Compiler.Ex.module_ [Console.Ex.use "f"]) .body
    (.list out)) >>= FixCtx.fixCtx) with
  | error e => exact ⟨_, _, _, .unfit hx hd⟩
  | ok t2 => exact ⟨_, _, _, .posted hx hd (by rw [hreg]; exact .nil _ _)⟩
example (c : List Val) (x : Dict String Nat × State Nat) : Console.Ex.console.runcode c x ≠ none := by
  intro h; cases h
/-- An input that is not in the table is not Python code. -/
example (t : Val) (b : Dict String Nat) (p : State Nat) :
    ¬ Imported Console.Ex.console "f[".toList Console.Ex.start.state t b p := by
  rintro ⟨hp, _⟩
  have : Console.Ex.console.parse "f[".toList = .error .syntaxError := by decide +kernel
  rw [this] at hp
  cases hp

/-! Where the session ends although it should go on. -/

/-- C61: a comment that ends with a question mark ends the session, with a SyntaxError: the console makes
`mcpyrate.repl.utils.doc(# why)` of it, where the closing parenthesis is part of the comment.  (`console` has a parser that
refuses that.) -/
theorem C61_comment_violated :
    ∃ s', Answers Console.Ex.console "# why?".toList Console.Ex.start (.error (.py .syntaxError)) s' :=
  ⟨Console.Ex.start, 0, rfl⟩

/-- C61: after the macro-import of a function that was defined inside of another function, the session ends with a
SyntaxError, although the input has been run: the console tries `from lib import outer.<locals>.h as h`. -/
theorem C61_qualname_violated : ∃ s',
    Answers Console.Ex.console "from lib import macros, h".toList Console.Ex.start (.error (.py .syntaxError)) s' ∧
      s'.bindings.get "h" = some 3 ∧ s'.state.user.2 = 1 := by
  cases h : runsource Console.Ex.console 20 "from lib import macros, h".toList Console.Ex.start with
  | none => exact absurd h (by
      have : (runsource Console.Ex.console 20 "from lib import macros, h".toList Console.Ex.start).isSome = true := by
        decide +kernel
      intro hc; rw [hc] at this; cases this)
  | some x =>
    have hx : (runsource Console.Ex.console 20 "from lib import macros, h".toList Console.Ex.start).map
        (fun x => (x.1, x.2.bindings.get "h", x.2.state.user.2)) = some (.error (.py .syntaxError), some 3, 1) := by
      decide +kernel
    rw [h] at hx
    obtain ⟨r, s'⟩ := x
    simp only [Option.map_some, Option.some.injEq, Prod.mk.injEq] at hx
    obtain ⟨rfl, h1, h2⟩ := hx
    exact ⟨s', ⟨20, h⟩, h1, h2⟩

/-- C61: a module that raises something else than ImportError, SyntaxError or ValueError when its macros are imported ends
the session. -/
theorem C61_import_violated : ∃ s',
    Answers Console.Ex.console "from bad import macros, f".toList Console.Ex.start (.error (.py .runtimeError)) s' := by
  have hx : (runsource Console.Ex.console 20 "from bad import macros, f".toList Console.Ex.start).map (·.1) =
      some (.error (.py .runtimeError)) := by decide +kernel
  obtain ⟨⟨r, s'⟩, h, hr⟩ := Option.map_eq_some_iff.1 hx
  cases hr
  exact ⟨s', 20, h⟩

end Mcpyrate
