import Verif.Lemmas.Compiler
import Verif.Lemmas.Modules
import Verif.Spec.RunCode
namespace Mcpyrate.RunCode
open Py Expander GetMacros Compiler Modules

variable {υ μ D Code : Type}

theorem endsPy_iff {f : Str} : endsPy f = true ↔ ∃ a, f = a ++ ['.', 'p', 'y'] := by
  unfold endsPy
  rw [beq_iff_eq]
  constructor
  · intro h
    refine ⟨f.take (f.length - 3), ?_⟩
    have := (List.take_append_drop (f.length - 3) f).symm
    rw [h] at this
    exact this
  · rintro ⟨a, rfl⟩
    simp

theorem prepared {T : Runner υ μ D Code} {f : Str} {src src' : Source} (h : Prepared T f src src') :
    dynamic T f src = .ok src' := by
  cases h with
  | tree h1 h2 =>
    have : endsPy f ≠ true := fun h => h1 (endsPy_iff.1 h)
    rw [dynamic, if_neg this, h2]
    rfl
  | list h1 h2 =>
    have : endsPy f ≠ true := fun h => h1 (endsPy_iff.1 h)
    rw [dynamic, if_neg this, h2]
    rfl
  | file h =>
    cases src with
    | tree t => rw [dynamic, if_pos (endsPy_iff.2 h)]
    | list t => rw [dynamic, if_pos (endsPy_iff.2 h)]
    | str _ => rfl
    | bytes _ => rfl
    | other => rfl
  | str => rfl
  | bytes => rfl
  | other => rfl

theorem selfName {name : Obj} {self : Option String} (h : SelfName name self) : selfOf name = self := by
  rcases h with ⟨s, rfl, rfl⟩ | ⟨h, rfl⟩
  · rfl
  · cases name with
    | str s => exact absurd rfl (h s)
    | none => rfl
    | obj i => rfl

theorem bind_err {ε σ α β : Type} {m : Py.M ε σ α} {f : α → Py.M ε σ β} {s s1 : σ} {e : ε} (h : m s = some (.error e, s1)) :
    (m >>= f) s = some (.error e, s1) := by
  change Py.M.bind m f s = _
  unfold Py.M.bind
  rw [h]

theorem bind_none {ε σ α β : Type} {m : Py.M ε σ α} {f : α → Py.M ε σ β} {s : σ} (h : m s = none) :
    (m >>= f) s = none := by
  change Py.M.bind m f s = _
  unfold Py.M.bind
  rw [h]

theorem run_mono (T : Runner υ μ D Code) (uuid : Str) {n m : Nat} (h : n ≤ m) (src : RunSource Code) (a : ModuleArg) :
    Compiler.Le (run T uuid n src a) (run T uuid m src a) := by
  unfold run
  refine Compiler.Le.bind (Compiler.Le.refl _) fun x => Compiler.Le.bind (Compiler.Le.refl _) fun file => Compiler.Le.bind (Compiler.Le.refl _) fun name =>
    Compiler.Le.bind ?_ fun _ => Compiler.Le.refl _
  cases src with
  | code c => exact Compiler.Le.refl _
  | source s =>
    cases file with
    | str f =>
      unfold codeOf compileSource
      exact Compiler.Le.bind (Compiler.Le.refl _) fun src => Compiler.Le.bind (fun p r hr => expand_mono T.toTools f _ h src p r hr) fun t => Compiler.Le.refl _
    | none => exact Compiler.Le.refl _
    | obj _ => exact Compiler.Le.refl _

theorem Finishes.det {T : Runner υ μ D Code} {uuid : Str} {src : RunSource Code} {a : ModuleArg} {p p1 p2 : State υ}
    {r1 r2 : Except Exc Obj} (h1 : Finishes T uuid src a p r1 p1) (h2 : Finishes T uuid src a p r2 p2) :
    r1 = r2 ∧ p1 = p2 := by
  obtain ⟨n, h1⟩ := h1
  obtain ⟨m, h2⟩ := h2
  have a := run_mono T uuid (Nat.le_max_left n m) src _ _ _ h1
  rw [run_mono T uuid (Nat.le_max_right n m) src _ _ _ h2] at a
  cases a
  exact ⟨rfl, rfl⟩

theorem doc_eq {T : Runner υ μ D Code} {body : List Val} {d : Obj} (hw : FutureImports.WellFormed body)
    (hn : NoOtherConstant body) (hd : Docstring body d) :
    ∃ c, FutureImports.getdocstring body = .ok c ∧ docObj T c = d := by
  rcases hd with ⟨s, rest, e, v, rfl, h1, h2, h3, h4, rfl⟩ | ⟨hd, rfl⟩
  · refine ⟨some (.str v), ?_, rfl⟩
    rw [FutureImports.getdocstring, if_pos h1, h2]
    dsimp only
    rw [if_pos h3, h4]
  · cases body with
    | nil => exact ⟨none, rfl, rfl⟩
    | cons s rest =>
      rw [FutureImports.getdocstring]
      by_cases h1 : s.isK .Expr = true
      · obtain ⟨e, he, hc⟩ := hw s rfl h1
        rw [if_pos h1, he]
        dsimp only
        by_cases h3 : e.isK .Constant = true
        · obtain ⟨c, hc⟩ := hc h3
          rw [if_pos h3, hc]
          rcases hn s e c rfl h1 he h3 hc with rfl | ⟨v, rfl⟩
          · exact ⟨_, rfl, rfl⟩
          · exact absurd ⟨h1, e, v, he, h3, hc⟩ (hd s rfl)
        · rw [if_neg h3]
          exact ⟨none, rfl, rfl⟩
      · rw [if_neg h1]
        exact ⟨none, rfl, rfl⟩

/-- The state with `__doc__` set. -/
def docState (m : Nat) (d : Obj) (p : State υ) : State υ :=
  p.setSys { p.sys with attrs := fun j => if j = m then (p.sys.attrs m).set "__doc__".toList d else p.sys.attrs j }

theorem docState_spec (m : Nat) (d : Obj) (p : State υ) : DocSet m d p (docState m d p) := by
  refine ⟨⟨rfl, rfl, rfl⟩, rfl, rfl, fun i a => ?_⟩
  show ((if i = m then (p.sys.attrs m).set "__doc__".toList d else p.sys.attrs i)).get a = _
  by_cases hi : i = m
  · subst hi
    rw [if_pos rfl, Dict.get_set]
    by_cases ha : a = "__doc__".toList
    · rw [if_pos ha.symm, if_pos ⟨rfl, ha⟩]
    · rw [if_neg (fun h => ha h.symm), if_neg (fun h => ha h.2)]
      rfl
  · rw [if_neg hi, if_neg (fun h => hi h.1)]
    rfl

/-- The last steps, in a module. -/
theorem run_module {T : Runner υ μ D Code} {uuid : Str} {n : Nat} {src : RunSource Code} {m : Nat} {p p2 : State υ}
    {file : Str} {name : Obj} {c : Code} {d : Option Const} (hm : IsModule (.obj m) p m file name)
    (hset : T.host.settable m = true)
    (hc : codeOf T (.str file) name n src p = some (.ok (c, d), p2)) :
    run T uuid n src (.module m) p = (T.exec c m (docState m (docObj T d) p2)).map fun x =>
      (x.1.map fun _ => Obj.obj m, x.2) := by
  unfold run
  obtain ⟨-, h1, h2⟩ := hm
  refine (bind_val (a := Obj.obj m) (s1 := p) rfl).trans ?_
  refine (bind_val (a := Obj.str file) (s1 := p) ?_).trans ?_
  · unfold getAttr; dsimp only; rw [show (p.sys.attrs m).get "__file__".toList = _ from h1]
  refine (bind_val (a := name) (s1 := p) ?_).trans ?_
  · unfold getAttr; dsimp only; rw [show (p.sys.attrs m).get "__name__".toList = _ from h2]
  refine (bind_val hc).trans ?_
  dsimp only
  refine (bind_val (a := ()) (s1 := docState m (docObj T d) p2) ?_).trans ?_
  · unfold setAttr
    dsimp only
    rw [if_pos hset]
    rfl
  cases hx : T.exec c m (docState m (docObj T d) p2) with
  | none => exact bind_none hx
  | some x =>
    obtain ⟨r, p3⟩ := x
    cases r with
    | error e => exact bind_err hx
    | ok u => exact bind_val hx

theorem run_module_error {T : Runner υ μ D Code} {uuid : Str} {n : Nat} {src : RunSource Code} {m : Nat} {p p2 : State υ}
    {file : Str} {name : Obj} {e : Exc} (hm : IsModule (.obj m) p m file name)
    (hc : codeOf T (.str file) name n src p = some (.error e, p2)) :
    run T uuid n src (.module m) p = some (.error e, p2) := by
  unfold run
  obtain ⟨-, h1, h2⟩ := hm
  refine (bind_val (a := Obj.obj m) (s1 := p) rfl).trans ?_
  refine (bind_val (a := Obj.str file) (s1 := p) ?_).trans ?_
  · unfold getAttr; dsimp only; rw [show (p.sys.attrs m).get "__file__".toList = _ from h1]
  refine (bind_val (a := name) (s1 := p) ?_).trans ?_
  · unfold getAttr; dsimp only; rw [show (p.sys.attrs m).get "__name__".toList = _ from h2]
  exact bind_err hc

theorem compile_ok {T : Runner υ μ D Code} {file : Str} {name : Obj} {src : Source} {p p2 : State υ} {t : Val}
    {body : List Val} {code : Code} {c : Option Const} (h : Compiled T file name src p t body code p2)
    (hd : FutureImports.getdocstring body = .ok c) :
    ∃ n, ∀ k, n ≤ k → compileSource T file (selfOf name) k src p = some (.ok (code, c), p2) := by
  obtain ⟨self, src', hs, hp, ⟨n, he⟩, hk, hb, hc⟩ := h
  refine ⟨n, fun k hk' => ?_⟩
  rw [selfName hs]
  unfold compileSource
  refine (bind_val (a := src') (s1 := p) (by rw [prepared hp]; rfl)).trans ?_
  refine (bind_val (expand_mono T.toTools file self hk' src' p _ he)).trans ?_
  rw [hk, hb]
  dsimp only
  refine (bind_val (a := c) (s1 := p2) (by rw [hd]; rfl)).trans ?_
  exact (bind_val (a := code) (s1 := p2) (by rw [hc]; rfl))

theorem getdocstring_ok {body : List Val} (hw : FutureImports.WellFormed body) :
    ∃ c, FutureImports.getdocstring body = .ok c := by
  cases body with
  | nil => exact ⟨_, rfl⟩
  | cons s rest =>
    rw [FutureImports.getdocstring]
    by_cases h1 : s.isK .Expr = true
    · obtain ⟨e, he, hc⟩ := hw s rfl h1
      rw [if_pos h1, he]
      dsimp only
      by_cases h3 : e.isK .Constant = true
      · obtain ⟨c, hc⟩ := hc h3
        rw [if_pos h3, hc]
        exact ⟨_, rfl⟩
      · rw [if_neg h3]
        exact ⟨_, rfl⟩
    · rw [if_neg h1]
      exact ⟨_, rfl⟩

end Mcpyrate.RunCode
