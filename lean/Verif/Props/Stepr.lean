import Verif.Lemmas.Stepr
import Verif.Props.ExpandRuntime
import Verif.Props.Layers
/-
C56 stepping at run time.

Full statement: `stepr[args][tree]` evaluates, at run time, to what `step_expansion` makes of the value of `tree`, with these
arguments and with the macros that were bound at the use site when `stepr` was expanded, also if the code runs in another
process.  The value is the same as that of `expandr[tree]`.  Macros that cannot be pickled are an error when `stepr` is
expanded; so are complex numbers among the arguments; wrong use is a SyntaxError.

The first part is `C56_stepr`, for arguments that come from the parser and a `tree` that is not `*x` (which Python does not
allow there); `step_expansion` is the subject of C50, and when it returns there are no invocations left
(`C56_nothing_left_partial`), and the result is that of `runtime_expand`, under the conditions of C57 (`C56_same_partial`).  In
general the second sentence is false, for example for `f()[x]`: `expandr` gives that back, stepping raises
SyntaxError (`C56_same_violated`).
-/
namespace Mcpyrate
open Py Expander QuoteOps ExpandStatic ExpandRuntime Stepr

variable {σ υ : Type}

/-- C56, `stepr[args][tree]`. -/
theorem C56_stepr (L : Lib σ) (E : Env (User σ)) (filename : String) (a : MArgs) (args : List Val) (s : Expander.St (User σ))
    (ha : a.synt = .expr) (hargs : a.args = some args) (hp : Quotes.parsed (.ofVal (.list args)) = true)
    (hc : Quotes.hasComplex (.ofVal (.list args)) = false) (ht : a.tree.isK .Starred = false)
    (hl : Dict.WF s.world.locals) (hg : Dict.WF s.world.globals) (hP : Picklable L s.world) :
    ∃ code b, Does E (stepR L filename a) s (.ok (.val code)) s ∧ Snapshot s.world b ∧
      ∀ (τ : Type) (H : Quotes.Host τ), Stepr.RunTime L s.world H →
        Quotes.eval H (.ofVal code) = (do
          let v ← Quotes.eval H (.ofVal a.tree)
          callsStepper L H filename b args v) := by
  obtain ⟨c, h1, -⟩ := QuoteOps.astify_uniform _ hp hc
  refine ⟨_, _, does_stepR ha hargs (h1 σ L.H none) hl hg hP, snapshot hl hg, fun τ H hR => ?_⟩
  obtain ⟨code, h2, h3⟩ := C32_quoted_partial H hR.imported none _ hp hc
  have h4 : (pure code : Quotes.Q τ Obj) = pure (.ofVal c) := by rw [← h2, h1 τ H none]
  funext st
  have h5 : code = .ofVal c := by
    have := congrFun h4 st
    cases this; rfl
  subst h5
  rw [eval_stepR hR hP (snapshot hl hg) filename args h3 ht]

/-- C56: the arguments have no locations at run time, but they mean the same to `step_expansion`. -/
theorem C56_arguments (args args' : List Val) (h : Obj.ofVal (.list args') = Quotes.noLoc (.ofVal (.list args)))
    (o : Bool × Bool) : StepExpansion.parseArgs args' o = StepExpansion.parseArgs args o := by
  rw [← FillLocation.ofVal_strip] at h
  cases QuoteOps.ofVal_inj h
  exact parseArgs_strip args o

/-- C56: if a macro that is bound cannot be pickled, that is an error when `stepr` is expanded. -/
theorem C56_unpicklable (L : Lib σ) (E : Env (User σ)) (filename : String) (a : MArgs) (args : List Val)
    (s : Expander.St (User σ)) (ha : a.synt = .expr) (hargs : a.args = some args)
    (hl : Dict.WF s.world.locals) (hg : Dict.WF s.world.globals) (k : String) (i : Nat) (e : Err)
    (hb : isbound s.world k = some i) (h : L.H.pickle (L.function i) = .error e) :
    ∃ k' i' e', isbound s.world k' = some i' ∧ L.H.pickle (L.function i') = .error e' ∧
      Does E (stepR L filename a) s (.error (.py e')) s := by
  obtain ⟨k', i', e', h1, h2, h3⟩ := macroBindings_error hl hg hb h
  refine ⟨k', i', e', h1, h2, 0, ?_⟩
  unfold stepR
  rw [hargs]
  dsimp only
  rw [if_neg (by simp [ha])]
  show run _ (match macroBindings L s.world with
    | .error e => .raise (.py e)
    | .ok b => _) s = _
  rw [h3]
  rfl

/-- C56: complex numbers among the arguments. -/
theorem C56_complex (L : Lib σ) (E : Env (User σ)) (filename : String) (a : MArgs) (args : List Val)
    (s : Expander.St (User σ)) (ha : a.synt = .expr) (hargs : a.args = some args)
    (hp : Quotes.parsed (.ofVal (.list args)) = true) (hc : Quotes.hasComplex (.ofVal (.list args)) = true)
    (hl : Dict.WF s.world.locals) (hg : Dict.WF s.world.globals) (hP : Picklable L s.world) :
    Does E (stepR L filename a) s (.error (.py .typeError)) s := by
  refine ⟨0, ?_⟩
  unfold stepR
  rw [hargs]
  dsimp only
  rw [if_neg (by simp [ha])]
  show run _ (match macroBindings L s.world with
    | .error e => .raise (.py e)
    | .ok b =>
      match Quotes.astify L.H none (.ofVal (.list args)) s.world.user.st with
      | none => .hang
      | some (.error e, st) => .put (withSt s.world st) (.raise (.py e))
      | some (.ok x, st) => .put (withSt s.world st) (ExpandFirst.give (asCode (stepCode filename b x a.tree)))) s = _
  rw [macroBindings_ok hl hg hP, C32_complex _ _ _ hp hc]
  rfl

/-- C56: other kinds of macros. -/
theorem C56_kinds (L : Lib σ) (E : Env (User σ)) (filename : String) (a : MArgs) (s : Expander.St (User σ)) (args : List Val)
    (hargs : a.args = some args) (ha : a.synt ≠ .expr) :
    Does E (stepR L filename a) s (.error (.py .syntaxError)) s := by
  refine ⟨0, ?_⟩
  unfold stepR
  rw [hargs]
  dsimp only
  rw [if_pos ha]
  rfl

/-- C56: when `step_expansion` returns, with an expander that has the bindings `b` of the use site `w0`, there are no
invocations left that this expander would expand, provided that the tree has nodes where Python's grammar has them; and that
expander has the macros of the use site. -/
theorem C56_nothing_left_partial (E : Env (StepExpansion.User σ)) (hook : Nat → Nat) (m f : Nat) (w0 w : StepExpansion.W σ)
    (b : Dict String Nat) (hb : Snapshot w0 b) (a : MArgs) (s' : Expander.St (StepExpansion.User σ)) (t : Val)
    (hf : a.tree.isTree = true)
    (h : run (visit E f) (StepExpansion.stepExpansion E hook m a) (init { w with locals := b }) = some (.ok (.val t), s'))
    (ht : t.isTree = true) (hs : Collector.Shaped t) :
    NoInvocations E s'.world t ∧ ∀ k i, isbound w0 k = some i → isbound { w with locals := b } k = some i :=
  ⟨C50_nothing_left E hook m f a _ s' t hf h ht hs, fun k i hk => by rw [C54_bound w0 w b hb, hk]; rfl⟩

/-- C56: when `step_expansion` returns, the result is that of `runtime_expand` with the same bindings, under the conditions of
C57. -/
theorem C56_same_partial (E : Env (StepExpansion.User σ)) (hook : Nat → Nat) (m f : Nat) (w : StepExpansion.W σ)
    (b : Dict String Nat) (a : MArgs) (args : List Val) (dump : Bool) (s' : Expander.St (StepExpansion.User σ)) (r : Val)
    (ha : a.synt = .expr) (hargs : a.args = some args)
    (hp : StepExpansion.parseArgs args (false, false) = .ok (dump, false)) (ht : a.tree.isTree = true) (hty : Tidy a.tree)
    (hset : ∀ u, Later E (init { w with locals := b }) a.tree u → Settled E { w with locals := b } u)
    (h : run (visit E f) (StepExpansion.stepExpansion E hook m a) (init { w with locals := b }) = some (.ok (.val r), s'))
    (hm : TidyMacros E s'.log) (hsh : Collector.Shaped r) (hne : r ≠ .list []) :
    ∃ w', Expands E .all b a.tree w (.ok r) w' := by
  obtain ⟨s'', ⟨n, h1⟩, -⟩ := C57_stepping_partial E hook m f a args dump _ s' r (.inl ha) hargs hp ht hty rfl hset h hm hsh hne
  refine ⟨{ s''.world with locals := w.locals }, n, ?_⟩
  unfold runtimeExpand
  rw [h1]

section
open StepExpansion StepExpansion.Ex
open Expander.Ex (sub call)

/-- C56, the same value as that of `expandr[tree]`, fails: `f()[x]` is given back by `runtime_expand`, and stepping raises
SyntaxError. -/
theorem C56_same_violated :
    Expands env .all world.locals (sub (call (name "f") []) (name "x")) { world with locals := [] }
      (.ok (sub (call (name "f") []) (name "x"))) { world with locals := [] } ∧
    ∃ s', run (visit env 10) (stepExpansion env id 10 (exprArgs [] (sub (call (name "f") []) (name "x")))) (init world) =
      some (.error (.py .syntaxError), s') :=
  ⟨⟨10, rfl⟩, _, rfl⟩

/-- `runtime_expand` gives `x` for `r[x]`, since stepping does. -/
example : ∃ w', Expands env .all world.locals Layers.t1 world (.ok (name "x")) w' :=
  C56_same_partial env id 10 10 world world.locals (exprArgs [str "dump"] Layers.t1) _ true _ _ rfl rfl rfl rfl
    (Expander.Layers.tidy_check (by decide +kernel)) (fun _ h => (Layers.steppable h).settled) rfl (Layers.fine'' (by decide +kernel))
    (Collector.shaped_of (by decide +kernel)) (by simp [name, mk])

/-- Stepping through `r[x]` ends in `x`. -/
example : NoInvocations env world (name "x") := by
  have hs : Snapshot world world.locals :=
    ⟨by unfold Dict.WF; decide, fun k => by
      show _ = ((Dict.get world.locals k).or (Dict.get ([] : Dict String Nat) k))
      cases Dict.get world.locals k <;> rfl⟩
  have h := (C56_nothing_left_partial env id 10 10 world world _ hs (exprArgs [] stepTree) _ (name "x") rfl rfl rfl
    (Collector.shaped_of (by decide +kernel))).1
  intro u hu hi
  refine h u hu ((invocation_world ?_).mpr hi)
  rfl
end

section
open QuoteOps.Ex (env world)

/-- A host that has `mcpyrate.metatools`; the function `step_expansion` gives back its keyword arguments here. -/
private def host : Quotes.Host Unit :=
  { Quotes.Ex.host with
    name := fun s => if s = "__import__" then pure (.ref ["__import__"]) else if s = "globals" then pure (.ext 2)
      else Quotes.Ex.host.name s
    attr := fun x a => match x with
      | .ref p => pure (.ref (p ++ [a]))
      | _ => M.throw .attributeError
    call := fun f _ kws => if f = .ext 2 then pure (.dict [] []) else pure (.tuple (kws.map (·.2))) }

private def lib : Lib Unit := { QuoteOps.Ex.lib with H := host }

private theorem picklable : Picklable lib (world 0) := fun _ i _ => ⟨[i], rfl⟩

private theorem mapM_some (items : List (String × Obj)) :
    ((items.map fun p => (some (Obj.str p.1), p.2)).mapM fun (p : Option Obj × Obj) => p.1.map fun k => (k, p.2)) =
      some (items.map fun p => (Obj.str p.1, p.2)) := by
  induction items with
  | nil => rfl
  | cons p items ih => rw [List.map_cons, List.mapM_cons, ih]; rfl

private theorem runTime : Stepr.RunTime lib (world 0) host where
  stepper := rfl
  expander := rfl
  imported := rfl
  metatools := rfl
  function _ := rfl
  builtins := ⟨rfl, .ext 2, .dict [] [], rfl, by simp, rfl⟩
  dicts items _ := by
    show Option.elim (List.mapM (fun (p : Option Obj × Obj) => p.1.map fun k => (k, p.2)) _) _ _ = _
    rw [mapM_some]
    simp only [Option.elim, List.map_map]
    rfl
  unpickle k i f _ h := by
    have : f = [i] := by cases h; rfl
    subst this; rfl

private theorem wfL : Dict.WF (world 0).locals := by unfold Dict.WF; decide
private theorem wfG : Dict.WF (world 0).globals := by unfold Dict.WF; decide

private def args (synt : Syn) (xs : List Val) (t : Val) : MArgs := ⟨synt, t, some xs, none, t⟩

private def dump : Val := mk .Constant [(.value, .str "dump"), (.kind, .none)]
private def oneJ : Val := mk .Constant [(.value, .const (.complex "1j")), (.kind, .none)]
private def five : Val := mk .Constant [(.value, .const (.int 5)), (.kind, .none)]

/-- `stepr["dump"][5]` -/
example : ∃ code b, Does env (stepR lib "a.py" (args .expr [dump] five)) (init (world 0)) (.ok (.val code)) (init (world 0)) ∧
    b.get "m" = some 7 ∧
    Quotes.eval host (.ofVal code) = pure (.tuple [.list [.ofVal dump], .str "expr", .tuple [dictOf lib b, .str "a.py"]]) := by
  obtain ⟨code, b, h1, h2, h3⟩ := C56_stepr lib env "a.py" (args .expr [dump] five) [dump] (init (world 0)) rfl rfl
    (by decide +kernel) (by decide +kernel) rfl wfL wfG picklable
  exact ⟨code, b, h1, by rw [h2.bound]; rfl, h3 _ _ runTime⟩

/-- An argument with a location. -/
example : StepExpansion.parseArgs [dump] (false, false) = .ok (true, false) ∧
    Obj.ofVal (.list [dump]) = Quotes.noLoc (.ofVal (.list [.node (.py .Constant) { lineno := .int 1, colOffset := .int 2 }
      [(.value, .str "dump"), (.kind, .none)]])) := by
  constructor <;> decide +kernel

/-- `stepr[1j][5]`; a macro that cannot be pickled; `with stepr: …` -/
example : Does env (stepR lib "a.py" (args .expr [oneJ] five)) (init (world 0)) (.error (.py .typeError)) (init (world 0)) ∧
    Does env (stepR { lib with function := fun _ => .none } "a.py" (args .expr [] five)) (init (world 0))
      (.error (.py .typeError)) (init (world 0)) ∧
    Does env (stepR lib "a.py" (args .block [] (.list [five]))) (init (world 0)) (.error (.py .syntaxError)) (init (world 0)) :=
  ⟨C56_complex lib env "a.py" _ [oneJ] _ rfl rfl (by decide +kernel) (by decide +kernel) wfL wfG picklable, ⟨0, rfl⟩,
    C56_kinds lib env "a.py" _ _ [] rfl (by decide)⟩

end

end Mcpyrate
