import Verif.Lemmas.RunCode
import Verif.Props.Compiler
import Verif.Spec.RunCodeExample
import Verif.Props.Modules
/-
C60: running code in a module (`mcpyrate.compiler.run`).  The full statement about the docstring fails: `__doc__` becomes
any constant that is the first statement (see `C60_docstring_violated`); so the theorems about source code ask that the
first statement is not a constant other than a string or `None`.
-/
namespace Mcpyrate
open Py Expander GetMacros Compiler Modules RunCode

variable {υ μ D Code : Type}

/-- C60: the outcome is determined by the arguments and the state. -/
theorem C60_deterministic (T : Runner υ μ D Code) (uuid : Str) (src : RunSource Code) (a : ModuleArg) (p p1 p2 : State υ)
    (r1 r2 : Except Exc Obj) (h1 : Finishes T uuid src a p r1 p1) (h2 : Finishes T uuid src a p r2 p2) :
    r1 = r2 ∧ p1 = p2 := h1.det h2

/-- C60: without a module, a new one is created and registered, and then the code is compiled and run in that. -/
theorem C60_new_module (T : Runner υ μ D Code) (uuid : Str) (src : RunSource Code) (p : State υ) (hu : '.' ∉ uuid)
    (hs : p.user.1.WF) : ∃ m p1, Target uuid p .none (.obj m) p1 ∧
      ∀ r p', Finishes T uuid src .none p r p' ↔ Finishes T uuid src (.module m) p1 r p' := by
  have hdot : '.' ∉ "dynamically_created_module_".toList ++ uuid := by
    intro h
    rcases List.mem_append.1 h with h | h
    · revert h; decide
    · exact hu h
  obtain ⟨m, s', h1, h2⟩ := C43_created T.host .none .none true uuid _ _ p.user.1 hs (.inr ⟨rfl, rfl⟩)
    (.inr ⟨rfl, .inr ⟨rfl, rfl⟩⟩)
    (fun q l hc => absurd (by rw [hc.1]; simp) hdot) (fun _ q l x hc => absurd (by rw [hc.1]; simp) hdot)
  refine ⟨m, p.setSys s', .new h2 ⟨rfl, rfl, rfl⟩, fun r p' => ?_⟩
  have : ∀ n, RunCode.run T uuid n src .none p = RunCode.run T uuid n src (.module m) (p.setSys s') := by
    intro n
    unfold RunCode.run
    refine (bind_val (a := Obj.obj m) (s1 := p.setSys s') ?_).trans rfl
    unfold RunCode.findModule
    dsimp only
    rw [show createModule T.host .none .none true uuid p.sys = _ from h1]
    rfl
  unfold Finishes
  simp only [this]

/-- C60: a name stands for the module with that name in `sys.modules`; it has to be there, and `None` (as left there by
`sys.modules[name] = None`) or a string is an AttributeError. -/
theorem C60_by_name (T : Runner υ μ D Code) (uuid : Str) (src : RunSource Code) (p p' : State υ) (n : Str)
    (r : Except Exc Obj) :
    (∀ m, p.user.1.modules.get n = some (.obj m) →
      (Finishes T uuid src (.name n) p r p' ↔ Finishes T uuid src (.module m) p r p')) ∧
    (p.user.1.modules.get n = none →
      (Finishes T uuid src (.name n) p r p' ↔ r = .error (.py .moduleNotFoundError) ∧ p' = p)) ∧
    (∀ x, p.user.1.modules.get n = some x → (∀ m, x ≠ .obj m) →
      (Finishes T uuid src (.name n) p r p' ↔ r = .error (.py .attributeError) ∧ p' = p)) := by
  refine ⟨?_, ?_, ?_⟩
  · intro m hm
    have : ∀ k, RunCode.run T uuid k src (.name n) p = RunCode.run T uuid k src (.module m) p := by
      intro k
      unfold RunCode.run
      refine (bind_val (a := Obj.obj m) (s1 := p) ?_).trans rfl
      unfold RunCode.findModule
      dsimp only
      rw [show p.sys.modules.get n = _ from hm]
    unfold Finishes
    simp only [this]
  · intro hm
    have : Finishes T uuid src (.name n) p (.error (.py .moduleNotFoundError)) p := by
      refine ⟨0, bind_err ?_⟩
      unfold RunCode.findModule
      dsimp only
      rw [show p.sys.modules.get n = _ from hm]
    constructor
    · exact fun h => h.det this
    · rintro ⟨rfl, rfl⟩; exact this
  · intro x hm hx
    have : Finishes T uuid src (.name n) p (.error (.py .attributeError)) p := by
      refine ⟨0, (bind_val (a := x) (s1 := p) ?_).trans (bind_err ?_)⟩
      · unfold RunCode.findModule
        dsimp only
        rw [show p.sys.modules.get n = _ from hm]
      · unfold getAttr
        cases x with
        | obj m => exact absurd rfl (hx m)
        | none => rfl
        | str => rfl
    constructor
    · exact fun h => h.det this
    · rintro ⟨rfl, rfl⟩; exact this

/-- C60: any other type is a TypeError; an object without `__file__` or `__name__` is an AttributeError.  Nothing is
compiled or run. -/
theorem C60_bad_module (T : Runner υ μ D Code) (uuid : Str) (src : RunSource Code) (p p' : State υ)
    (r : Except Exc Obj) :
    (Finishes T uuid src .other p r p' ↔ r = .error (.py .typeError) ∧ p' = p) ∧
    ∀ m, (p.user.1.attrs m).get "__file__".toList = none ∨ (p.user.1.attrs m).get "__name__".toList = none →
      (Finishes T uuid src (.module m) p r p' ↔ r = .error (.py .attributeError) ∧ p' = p) := by
  constructor
  · have : Finishes T uuid src .other p (.error (.py .typeError)) p := ⟨0, rfl⟩
    constructor
    · exact fun h => h.det this
    · rintro ⟨rfl, rfl⟩; exact this
  · intro m hm
    have : Finishes T uuid src (.module m) p (.error (.py .attributeError)) p := by
      refine ⟨0, ?_⟩
      unfold RunCode.run
      refine (bind_val (a := Obj.obj m) (s1 := p) rfl).trans ?_
      cases h1 : (p.user.1.attrs m).get "__file__".toList with
      | none =>
        refine bind_err ?_
        unfold getAttr
        dsimp only
        rw [show (p.sys.attrs m).get "__file__".toList = _ from h1]
      | some f =>
        refine (bind_val (a := f) (s1 := p) ?_).trans (bind_err ?_)
        · unfold getAttr
          dsimp only
          rw [show (p.sys.attrs m).get "__file__".toList = _ from h1]
        · unfold getAttr
          dsimp only
          rw [show (p.sys.attrs m).get "__name__".toList = _ from hm.resolve_left (by rw [h1]; simp)]
    constructor
    · exact fun h => h.det this
    · rintro ⟨rfl, rfl⟩; exact this

/-- C60: source code that can be compiled is run once, in the namespace of the module, after the docstring of the module
is set; if that succeeds, the module is returned; an exception is passed on. -/
theorem C60_source_partial (T : Runner υ μ D Code) (uuid : Str) (src : Source) (p p2 : State υ) (m : Nat) (file : Str)
    (name : Obj) (t : Val) (body : List Val) (code : Code) (d : Obj) (hm : IsModule (.obj m) p m file name)
    (hset : T.host.settable m = true) (hc : Compiled T file name src p t body code p2)
    (hw : FutureImports.WellFormed body) (hn : NoOtherConstant body) (hd : Docstring body d) :
    ∃ p3, DocSet m d p2 p3 ∧ ∀ r p', Finishes T uuid (.source src) (.module m) p r p' ↔
      ∃ r0, T.exec code m p3 = some (r0, p') ∧ r = r0.map fun _ => .obj m := by
  obtain ⟨c, hg, rfl⟩ := doc_eq (T := T) hw hn hd
  obtain ⟨n, hn⟩ := compile_ok hc hg
  refine ⟨_, docState_spec m (docObj T c) p2, fun r p' => ?_⟩
  have hrun : ∀ k, n ≤ k → _ := fun k hk => run_module (uuid := uuid) (n := k) (src := .source src) hm hset (hn k hk)
  constructor
  · rintro ⟨k, h⟩
    have h := run_mono T uuid (Nat.le_max_right n k) (.source src) _ _ _ h
    rw [hrun _ (Nat.le_max_left n k)] at h
    obtain ⟨x, hx, hy⟩ := Option.map_eq_some_iff.1 h
    obtain ⟨r0, p3⟩ := x
    cases hy
    exact ⟨r0, hx, rfl⟩
  · rintro ⟨r0, h, rfl⟩
    refine ⟨n, ?_⟩
    rw [hrun n (Nat.le_refl _), h]
    rfl

/-- C60: a code object is run as it is; the docstring is set to `None`. -/
theorem C60_code (T : Runner υ μ D Code) (uuid : Str) (code : Code) (p : State υ) (m : Nat) (file : Str) (name : Obj)
    (hm : IsModule (.obj m) p m file name) (hset : T.host.settable m = true) :
    ∃ p3, DocSet m .none p p3 ∧ ∀ r p', Finishes T uuid (.code code) (.module m) p r p' ↔
      ∃ r0, T.exec code m p3 = some (r0, p') ∧ r = r0.map fun _ => .obj m := by
  refine ⟨_, docState_spec m .none p, fun r p' => ?_⟩
  have hrun : ∀ k, _ := fun k => run_module (T := T) (uuid := uuid) (n := k) (src := .code code) (c := code) (d := none)
    (p2 := p) hm hset rfl
  unfold Finishes
  constructor
  · rintro ⟨k, h⟩
    rw [hrun k] at h
    obtain ⟨x, hx, hy⟩ := Option.map_eq_some_iff.1 h
    obtain ⟨r0, p3⟩ := x
    cases hy
    exact ⟨r0, hx, rfl⟩
  · rintro ⟨r0, h, rfl⟩
    refine ⟨0, ?_⟩
    rw [hrun 0]
    exact Option.map_eq_some_iff.2 ⟨_, h, rfl⟩

/-- C60: source code that cannot be compiled is not run, and the docstring of the module is not changed.  The same goes
for code that is expanded to something else than a module. -/
theorem C60_not_compiled (T : Runner υ μ D Code) (uuid : Str) (src : Source) (p p2 : State υ) (m : Nat) (file : Str)
    (name : Obj) (hm : IsModule (.obj m) p m file name) :
    (∀ self src' e, SelfName name self → Prepared T file src src' → Expands T.toTools file self src' p (.error e) p2 →
      ∀ r p', Finishes T uuid (.source src) (.module m) p r p' ↔ r = .error e ∧ p' = p2) ∧
    (∀ self src' t body e, SelfName name self → Prepared T file src src' → Expands T.toTools file self src' p (.ok t) p2 →
      t.isK .Module = true → t.get? .body = some (.list body) → FutureImports.WellFormed body →
      T.compile t file = .error e →
      ∀ r p', Finishes T uuid (.source src) (.module m) p r p' ↔ r = .error (.py e) ∧ p' = p2) ∧
    (∀ e, (∃ t, src = .tree t ∧ T.unparse t = .error e) ∨ (∃ xs, src = .list xs ∧ T.unparse (.list xs) = .error e) →
      (¬ ∃ a, file = a ++ ['.', 'p', 'y']) →
      ∀ r p', Finishes T uuid (.source src) (.module m) p r p' ↔ r = .error (.py e) ∧ p' = p) ∧
    (∀ self src' t, SelfName name self → Prepared T file src src' → Expands T.toTools file self src' p (.ok t) p2 →
      t.isK .Module = false →
      ∀ r p', Finishes T uuid (.source src) (.module m) p r p' ↔ r = .error (.py .assertionError) ∧ p' = p2) := by
  have key : ∀ (e : Exc) (p2 : State υ), Finishes T uuid (.source src) (.module m) p (.error e) p2 →
      ∀ r p', Finishes T uuid (.source src) (.module m) p r p' ↔ r = .error e ∧ p' = p2 := by
    intro e p2 h r p'
    constructor
    · exact fun h' => h'.det h
    · rintro ⟨rfl, rfl⟩; exact h
  refine ⟨fun self src' e hs hp he => key _ _ ?_, fun self src' t body e hs hp he hk hb hw hc => key _ _ ?_,
    fun e he hf => key _ _ ?_, fun self src' t hs hp he hk => key _ _ ?_⟩
  · obtain ⟨n, he⟩ := he
    refine ⟨n, run_module_error hm ?_⟩
    rw [codeOf, RunCode.selfName hs]
    unfold compileSource
    refine (bind_val (a := src') (s1 := p) (by rw [prepared hp]; rfl)).trans ?_
    exact bind_err he
  · obtain ⟨n, he⟩ := he
    refine ⟨n, run_module_error hm ?_⟩
    rw [codeOf, RunCode.selfName hs]
    unfold compileSource
    refine (bind_val (a := src') (s1 := p) (by rw [prepared hp]; rfl)).trans ?_
    refine (bind_val he).trans ?_
    rw [hk, hb]
    dsimp only
    obtain ⟨c, hg⟩ := getdocstring_ok hw
    refine (bind_val (a := c) (s1 := p2) (by rw [hg]; rfl)).trans ?_
    exact bind_err (by rw [hc]; rfl)
  · refine ⟨0, run_module_error hm ?_⟩
    rw [codeOf]
    unfold compileSource
    have : endsPy file ≠ true := fun h => hf (endsPy_iff.1 h)
    refine bind_err ?_
    rcases he with ⟨t, rfl, he⟩ | ⟨xs, rfl, he⟩
    · rw [dynamic, if_neg this, he]; rfl
    · rw [dynamic, if_neg this, he]; rfl
  · obtain ⟨n, he⟩ := he
    refine ⟨n, run_module_error hm ?_⟩
    rw [codeOf, RunCode.selfName hs]
    unfold compileSource
    refine (bind_val (a := src') (s1 := p) (by rw [prepared hp]; rfl)).trans ?_
    refine (bind_val he).trans ?_
    rw [hk]
    rfl

/-- C60: the text of a module that uses none of the features of mcpyrate is compiled and run like Python does it. -/
theorem C60_plain_partial (T : Runner υ μ D Code) (uuid : Str) (text : Str) (p : State υ) (m : Nat) (file : Str)
    (name : Obj) (t : Val) (body : List Val) (code : Code) (d : Obj) (hm : IsModule (.obj m) p m file name)
    (hset : T.host.settable m = true) (how : ∀ c, T.isOwn c = true → T.isMarker c = true)
    (hg : Given T.toTools (.str text) t) (ht : Plain T.toTools p t) (hr : p.registry = [])
    (hb : t.get? .body = some (.list body)) (hc : T.compile t file = .ok code)
    (hw : FutureImports.WellFormed body) (hn : NoOtherConstant body) (hd : Docstring body d) :
    ∃ p3, DocSet m d p p3 ∧ ∀ r p', Finishes T uuid (.source (.str text)) (.module m) p r p' ↔
      ∃ r0, T.exec code m p3 = some (r0, p') ∧ r = r0.map fun _ => .obj m := by
  obtain ⟨self, hs⟩ : ∃ self, SelfName name self := by
    cases name with
    | str s => exact ⟨_, .inl ⟨s, rfl, rfl⟩⟩
    | none => exact ⟨none, .inr ⟨by simp, rfl⟩⟩
    | obj i => exact ⟨none, .inr ⟨by simp, rfl⟩⟩
  refine C60_source_partial T uuid (.str text) p p m file name t body code d hm hset
    ⟨self, .str text, hs, .str, ?_, ht.module_, hb, hc⟩ hw hn hd
  exact (C59_plain T.toTools file self (.str text) p t how hg ht hr _ _).2 ⟨rfl, rfl⟩

/-! ### Concrete cases -/
section
open RunCode.Ex

-- in a module with a source file, by name
example : Ex.shown (RunCode.run runner "0a".toList 5 (.source (.list [docStmt])) (.name "m".toList) Ex.start) =
    some (.ok (.obj 3, [some (.str "m".toList), some (.str "text".toList), some (.str "text".toList)], none), 1) := by
  decide +kernel

-- in a new module: the list is unparsed; the module is registered
example : Ex.shown (RunCode.run runner "0a".toList 5 (.source (.list [docStmt])) .none Ex.start) =
    some (.ok (.obj 4, [some (.str "dynamically_created_module_0a".toList), some (.str "text".toList),
      some (.str "text".toList)], some (.obj 4)), 1) := by
  decide +kernel

-- errors: nothing is run
example : Ex.shown (RunCode.run runner "0a".toList 5 (.source (.list [docStmt])) (.name "n".toList) Ex.start) =
    some (.error (.py .moduleNotFoundError), 0) := by decide +kernel
example : Ex.shown (RunCode.run runner "0a".toList 5 (.source (.list [numStmt])) .none Ex.start) =
    some (.error (.py .unparserError), 0) := by decide +kernel
example : Ex.shown (RunCode.run runner "0a".toList 5 (.source (.str "(".toList)) .none Ex.start) =
    some (.error (.py .importError), 0) := by decide +kernel

-- a postprocessor that replaces the module
example : Ex.shown (RunCode.run { runner with post := fun _ _ s => some (.ok (name "x"), s) } "0a".toList 5
      (.source (.list [docStmt])) (.module 3) { RunCode.Ex.start with registry := [0] }) =
    some (.error (.py .assertionError), 0) := by decide +kernel

-- code: the docstring is None
example : Ex.shown (RunCode.run runner "0a".toList 5 (.code docStmt) (.module 3) Ex.start) =
    some (.ok (.obj 3, [some (.str "m".toList), some .none, some .none], none), 1) := by decide +kernel

-- the hypotheses of C60_source_partial
example : IsModule (.obj 3) Ex.start 3 "/home/u/m.py".toList (.str "m".toList) ∧ Ex.start.user.1.WF ∧
    Compiled runner "/home/u/m.py".toList (.str "m".toList) (.list [docStmt]) Ex.start (Compiler.Ex.module_ [docStmt])
      [docStmt] (Compiler.Ex.module_ [docStmt]) Ex.start ∧
    FutureImports.WellFormed [docStmt] ∧ NoOtherConstant [docStmt] ∧ Docstring [docStmt] (.str "text".toList) := by
  refine ⟨⟨rfl, rfl, rfl⟩, ⟨by unfold Dict.WF; decide, ?_⟩, ?_, ?_, ?_, ?_⟩
  · intro k i h
    have h' : Dict.get [("m".toList, Obj.obj 3)] k = some (.obj i) := h
    rw [Dict.get_cons] at h'
    split at h'
    · cases h'; decide
    · cases h'
  · refine ⟨some "m", _, .inl ⟨_, rfl, rfl⟩, .file ⟨"/home/u/m".toList, by decide⟩, ⟨5, rfl⟩, rfl, rfl, rfl⟩
  · intro s hs _
    cases hs
    exact ⟨_, rfl, fun _ => ⟨_, rfl⟩⟩
  · intro s e c hs _ he _ hc
    cases hs; cases he; cases hc
    exact .inr ⟨_, rfl⟩
  · exact .inl ⟨_, _, _, _, rfl, rfl, rfl, rfl, rfl, rfl⟩

/-- C60: the docstring is not always a string or `None`: if the first statement is a number, then the number is assigned
to `__doc__`. -/
theorem C60_docstring_violated : ∃ p', Finishes runner "0a".toList (.source (.list [numStmt])) (.module 3) Ex.start
      (.ok (.obj 3)) p' ∧
    ¬ ∃ d, Docstring [numStmt] d ∧ (p'.user.1.attrs 3).get "__doc__".toList = some d := by
  refine ⟨_, ⟨5, rfl⟩, ?_⟩
  rintro ⟨d, hd, h⟩
  have hd' : d = .obj 99 := (Option.some.inj h).symm
  subst hd'
  rcases hd with ⟨s, rest, e, v, h1, h2, h3, h4, h5, h6⟩ | ⟨_, h6⟩
  · cases h6
  · cases h6

end

end Mcpyrate
