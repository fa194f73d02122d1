import Verif.Model.Collector
/-
Model of `step_expansion`, `mcpyrate/debug.py:24-143`, as a macro function of the expander model (`Verif.Model.Expander`).

Simplifications: what is printed is recorded as a list of events with the trees in them, instead of the text.  If a tree
cannot be formatted, the heading that is printed above it is not recorded.  The message that the expansion is complete is
recorded before the debug hook is removed, instead of after that (no user code runs in between).
-/
namespace Mcpyrate.StepExpansion
open Py Expander

/-- What a message is about: the tree before expansion, the tree after a step, the application of a macro in a step, the
result of that, the end. -/
inductive Event where
  | before (t : Val)
  | after (step : Nat) (t : Val)
  | applying (step : Nat) (macroname : String) (t : Val)
  | result (r : Ret)
  | complete (step : Nat)
  deriving DecidableEq

/-- A message: the nesting level of the `step_expansion` (the indentation shows it), whether the formatter is `dump`. -/
structure Line where
  level : Nat
  dump : Bool
  event : Event
  deriving DecidableEq

/-- The local variables of a running `step_expansion` that `print_step` uses: the formatter and `step`. -/
structure Frame where
  dump : Bool
  step : Nat
  deriving DecidableEq

/-- The state: the running `step_expansion`s, the innermost first (so `_step_expansion_level.value`, debug.py:24, is the
length), `sys.stderr`, and the state of other user code. -/
structure User (σ : Type) where
  frames : List Frame
  stderr : List Line
  rest : σ

variable {σ : Type}

abbrev W (σ : Type) := World (User σ)

/-- Entering `with _step_expansion_level.changed_by(+1)`, debug.py:100. -/
def push (dump : Bool) (w : W σ) : W σ := { w with user := { w.user with frames := ⟨dump, 0⟩ :: w.user.frames } }

/-- Leaving it. -/
def pop (w : W σ) : W σ := { w with user := { w.user with frames := w.user.frames.tail } }

/-- `step = n`. -/
def setStep (n : Nat) (w : W σ) : W σ :=
  { w with user := { w.user with frames := match w.user.frames with
    | [] => []
    | fr :: frs => { fr with step := n } :: frs } }

/-- `print(…, file=sys.stderr)`. -/
def emit (x : Line) (w : W σ) : W σ := { w with user := { w.user with stderr := w.user.stderr ++ [x] } }

/-- Whether the formatter returns: `unparse_with_fallbacks` always does (unparser.py:1201-1220); `dump` raises TypeError
unless it gets a node or a list (astdumper.py:81-82). -/
def formats (dump : Bool) : Ret → Bool
  | .val v => !dump || v.isAST || v.isList
  | .other => !dump

/-- Print `x`, which shows the tree `v`; or the formatter raises TypeError. -/
def display (x : Line) (v : Ret) (k : Except Exc Unit → Prog (User σ)) : Prog (User σ) :=
  if formats x.dump v then .get fun _ w => .put (emit x w) (k (.ok ())) else k (.error (.py .typeError))

/-- One of the macro arguments, debug.py:83-96; the flags are: use `dump`, print details. -/
def parseArg (arg : Val) (o : Bool × Bool) : Except Exc (Bool × Bool) :=
  if arg.isK .Constant then do
    let v ← attr arg .value
    if v = .str "dump" then return (true, o.2)
    else if v = .str "detailed" then return (o.1, true)
    else if v = .str "unparse" ∨ v = .str "summary" then return o
    else throw (.py .valueError)
  else .error (.py .typeError)

def parseArgs : List Val → Bool × Bool → Except Exc (Bool × Bool)
  | [], o => .ok o
  | arg :: args, o => do parseArgs args (← parseArg arg o)

/-- The rest of a step after the tree has been shown. -/
def afterDisplay (k : Except Exc (Val × Nat) → Prog (User σ)) (next : Prog (User σ)) : Except Exc Unit → Prog (User σ)
  | .error e => k (.error e)
  | .ok () => next

/-- The rest of a step after `tree = expander.visit_once(tree)`, debug.py:117-123. -/
def afterVisit (dump : Bool) (level n : Nat) (k : Except Exc (Val × Nat) → Prog (User σ)) (next : Val → Prog (User σ))
    (r : Except Exc Val) : Prog (User σ) :=
  match r >>= fun d => attr d .body with
  | .error e => k (.error e)
  | .ok t => display ⟨level, dump, .after n t⟩ (.val t) (afterDisplay k (next t))

/-- `while mc.collected`, with the outcome of `mc.visit(tree)`. -/
def afterCollect (c : Option (Except Exc Unit × List Collector.Key)) (t : Val) (n : Nat)
    (k : Except Exc (Val × Nat) → Prog (User σ)) (next : Prog (User σ)) : Prog (User σ) :=
  match c with
  | none => .hang
  | some (.error e, _) => k (.error e)
  | some (.ok (), []) => k (.ok (t, n))
  | some (.ok (), _ :: _) => next

/-- `doit`, debug.py:110-124.  `m` bounds the number of steps (and the depth of the trees); `n` is `step`, and `k` is what
happens afterwards, with the tree and the number of steps. -/
def doit (E : Env (User σ)) (dump : Bool) (level : Nat) :
    Nat → Nat → Val → (Except Exc (Val × Nat) → Prog (User σ)) → Prog (User σ)
  | 0, _, _, _ => .hang
  | m + 1, n, t, k => .get fun _ w => afterCollect (Collector.visit E w m t []) t n k
      (.put (setStep (n + 1) w) (.visit .once t
        (afterVisit dump level (n + 1) k fun t' => doit E dump level m (n + 1) t' k)))

/-- Print the result of a macro, debug.py:132-133. -/
def printResult (x : Line) (newtree : Ret) : Except Exc Unit → Prog (User σ)
  | .error e => .raise e
  | .ok () => display x newtree fun o =>
    match o with
    | .error e => .raise e
    | .ok () => .ret (.val .none)

/-- `print_step`, debug.py:127-133, of the `step_expansion` at `level`. -/
def printStep (level : Nat) (oldtree : Val) (newtree : Ret) (name : String) : Prog (User σ) :=
  .get fun _ w =>
    match w.user.frames.reverse[level - 1]? with
    | none => .raise (.py .nameError)
    | some fr => display ⟨level, fr.dump, .applying fr.step name oldtree⟩ (.val oldtree)
        (printResult ⟨level, fr.dump, .result newtree⟩ newtree)

/-- Return or raise. -/
def outcome : Except Exc Ret → Prog (User σ)
  | .ok r => .ret r
  | .error e => .raise e

/-- End of the block `with _step_expansion_level.changed_by(+1)`: restore the level, then return or raise. -/
def leave (r : Except Exc Ret) : Prog (User σ) :=
  .get fun _ w => .put (pop w) (outcome r)

/-- The message at the end, debug.py:140-142. -/
def complete (dump : Bool) (level : Nat) (k : Except Exc Ret → Prog (User σ)) (o : Except Exc (Val × Nat)) : Prog (User σ) :=
  match o with
  | .error e => k (.error e)
  | .ok (t, n) => .get fun _ w => .put (emit ⟨level, dump, .complete n⟩ w) (k (.ok (.val t)))

/-- The part of `step_expansion` after the tree before expansion has been shown, debug.py:109-142; `detailed` is the debug
hook to be used. -/
def afterBefore (E : Env (User σ)) (dump : Bool) (detailed : Option Nat) (level m : Nat) (t : Val) :
    Except Exc Unit → Prog (User σ)
  | .error e => leave (.error e)
  | .ok () =>
    match detailed with
    | some h => .withHook h (doit E dump level m 0 t (complete dump level outcome)) leave
    | none => doit E dump level m 0 t (complete dump level leave)

/-- `step_expansion`, debug.py:27-143.  `hook level` is the number of the function `print_step` that the `step_expansion` at
that level creates. -/
def stepExpansion (E : Env (User σ)) (hook : Nat → Nat) (m : Nat) (a : MArgs) : Prog (User σ) :=
  if a.synt = .expr ∨ a.synt = .block then
    match a.args with
    | none => .raise (.py .typeError)
    | some args =>
      match parseArgs args (false, false) with
      | .error e => .raise e
      | .ok (dump, detailed) => .get fun _ w =>
        .put (push dump w) (display ⟨w.user.frames.length + 1, dump, .before a.tree⟩ (.val a.tree)
          (afterBefore E dump (if detailed then some (hook (w.user.frames.length + 1)) else none)
            (w.user.frames.length + 1) m a.tree))
  else .raise (.py .syntaxError)

end Mcpyrate.StepExpansion
