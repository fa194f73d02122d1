import Verif.Lemmas.Compiler
import Verif.Spec.CompilerExample
import Verif.Props.Markers
import Verif.Props.FixCtx
import Verif.Props.Expander
/-
C59: expanding a module (`mcpyrate.compiler.expand`).
-/
namespace Mcpyrate
open Py Expander GetMacros Paths Dialects Compiler

variable {υ μ D : Type}

/-- C59: the result is determined by the source and the state. -/
theorem C59_deterministic (T : Tools υ μ D) (fn : Str) (self : Option String) (src : Source) (p p1 p2 : Proc υ)
    (r1 r2 : Except Exc Val) (h1 : Expands T fn self src p r1 p1) (h2 : Expands T fn self src p r2 p2) :
    r1 = r2 ∧ p1 = p2 := h1.det h2

/-- C59: an expansion that succeeds went through the stages in this order: dialects that transform the text, parsing,
dialects that transform the tree, macro-imports, macros, the expander's own markers and contexts, the global
postprocessors that are registered by then, the postprocessors of the dialects that were applied. -/
theorem C59_stages (T : Tools υ μ D) (fn : Str) (self : Option String) (src : Source) (p p' : Proc υ) (t' : Val)
    (hK : ReturnsParsed T.dialects) (hk : KeepRegistry T.post) (hself : self ≠ some "")
    (h : Expands T fn self src p (.ok t') p') :
    ∃ t p0, Initial T fn p src t p0 ∧ (ParsedModule t → ¬ Multiphase t → ∃ ds t1 p1 calls,
      Stages T fn self t p0 ds (.ok t1) p1 ∧ Posted T.dialects ds t1 p1 calls t' p') := by
  obtain ⟨n, h⟩ := h
  obtain ⟨x, hx, hy⟩ := Option.map_eq_some_iff.1 h
  obtain ⟨r, s'⟩ := x
  cases hy
  rcases expandWith_initial hx with ⟨e, he⟩ | ⟨t, s1, hi, ht⟩
  · cases he
  refine ⟨t, s1.world, hi, fun hp hm => ?_⟩
  obtain ⟨-, body, hb, hp, hn⟩ := hp
  rcases ismultiphase_eq hp hn with ⟨h1, h2⟩ | ⟨h1, h2⟩
  · exact absurd ((multiphase_iff hb).2 h2) hm
  · rw [expandTree_single hb h1] at ht
    obtain ⟨ds, t1, p1, calls, h3, h4, _⟩ := (singlephase_spec hK hk hself ⟨body, hb, hp⟩ ht).1 _ rfl
    exact ⟨ds, t1, p1, calls, h3, h4⟩

/-- C59: an exception that is not one of the library's own errors was raised by a macro or a global postprocessor; all
stages before succeeded, and what they did remains; the postprocessors of the dialects are not called. -/
theorem C59_raises (T : Tools υ μ D) (fn : Str) (self : Option String) (src : Source) (p p' : Proc υ) (e : Exc)
    (hK : ReturnsParsed T.dialects) (hk : KeepRegistry T.post) (hself : self ≠ some "")
    (h : Expands T fn self src p (.error e) p') (he : ∀ x, e ≠ .py x) :
    ∃ t p0, Initial T fn p src t p0 ∧ (ParsedModule t → ¬ Multiphase t → ∃ ds, Stages T fn self t p0 ds (.error e) p') := by
  obtain ⟨n, h⟩ := h
  obtain ⟨x, hx, hy⟩ := Option.map_eq_some_iff.1 h
  obtain ⟨r, s'⟩ := x
  cases hy
  rcases expandWith_initial hx with ⟨e', he'⟩ | ⟨t, s1, hi, ht⟩
  · cases he'
    exact absurd rfl (he e')
  refine ⟨t, s1.world, hi, fun hp hm => ?_⟩
  obtain ⟨-, body, hb, hp, hn⟩ := hp
  rcases ismultiphase_eq hp hn with ⟨h1, h2⟩ | ⟨h1, h2⟩
  · exact absurd ((multiphase_iff hb).2 h2) hm
  · rw [expandTree_single hb h1] at ht
    rcases (singlephase_spec hK hk hself ⟨body, hb, hp⟩ ht).2 _ rfl with ⟨x, rfl⟩ | h3
    · exact absurd rfl (he x)
    · exact h3

/-- C59: the result contains no AST markers. -/
theorem C59_no_markers (T : Tools υ μ D) (fn : Str) (self : Option String) (src : Source) (p p' : Proc υ) (t' : Val)
    (hm : ∀ t p0, Initial T fn p src t p0 → ParsedModule t ∧ ¬ Multiphase t) (ht' : t'.isTree = true)
    (h : Expands T fn self src p (.ok t') p') : ∀ u, Reach t' u → u.hasCls T.isMarker = false := by
  obtain ⟨n, h⟩ := h
  obtain ⟨x, hx, hy⟩ := Option.map_eq_some_iff.1 h
  obtain ⟨r, s'⟩ := x
  cases hy
  rcases expandWith_initial hx with ⟨e, he⟩ | ⟨t, s1, hi, ht⟩
  · cases he
  obtain ⟨⟨-, body, hb, hp, hn⟩, hm⟩ := hm t s1.world hi
  rcases ismultiphase_eq hp hn with ⟨h1, h2⟩ | ⟨h1, h2⟩
  · exact absurd ((multiphase_iff hb).2 h2) hm
  rw [expandTree_single hb h1] at ht
  have hc := singlephase_checked ht
  intro u hu
  cases hcls : u.hasCls T.isMarker with
  | false => rfl
  | true =>
    rw [(C10_check_no_markers T.isMarker t' ht').1 ⟨u, hu, hcls⟩] at hc
    cases hc

/-- C59: a module that asks for multi-phase compilation is handed over to the multi-phase compiler; without the name of the
module that is an error. -/
theorem C59_multiphase (T : Tools υ μ D) (fn : Str) (self : Option String) (src : Source) (p p' : Proc υ) (t : Val)
    (hg : Given T src t) (hk : t.isK .Module = true) (hp : ParsedModule t) (hm : Multiphase t) (r : Except Exc Val) :
    Expands T fn self src p r p' ↔
      ((self = none ∨ self = some "") ∧ r = .error (.py .valueError) ∧ p' = p) ∨
      (∃ a s', self = some a ∧ a ≠ "" ∧ T.multiphase t a { world := p } = some (r, s') ∧ p' = s'.world) := by
  obtain ⟨-, body, hb, hp, hn⟩ := hp
  have hmp : ismultiphase body = .ok true := by
    rcases ismultiphase_eq hp hn with ⟨h1, -⟩ | ⟨-, h2⟩
    · exact h1
    · exact absurd ((multiphase_iff hb).1 hm) h2
  have hrun : ∀ n, Compiler.expand T fn self (n + 1) src p = _ := fun n =>
    (given_run hg hk ⟨body, hb⟩ n).trans (congrArg (fun m : Comp υ Val => Option.map _ (m { world := p }))
      (expandTree_multi hb hmp))
  have hex : Expands T fn self src p r p' ↔ Compiler.expand T fn self 1 src p = some (r, p') := by
    constructor
    · rintro ⟨n, h⟩
      have h := expand_mono T fn self (Nat.le_succ n) src p _ h
      rw [hrun n] at h
      rw [hrun 0]
      exact h
    · intro h
      exact ⟨1, h⟩
  rw [hex, hrun 0]
  have err : Option.map (fun x : Except Exc Val × Dialects.St (Proc υ) => (x.1, x.2.world))
      ((Py.M.throw (.py .valueError) : Comp υ Val) { world := p }) = some (r, p') ↔ r = .error (.py .valueError) ∧ p' = p := by
    constructor
    · intro h; cases h; exact ⟨rfl, rfl⟩
    · rintro ⟨rfl, rfl⟩; rfl
  cases self with
  | none =>
    refine err.trans ⟨fun h => .inl ⟨.inl rfl, h⟩, ?_⟩
    rintro (⟨_, h⟩ | ⟨a, _, h, _⟩)
    · exact h
    · cases h
  | some a =>
    by_cases ha : a = ""
    · subst ha
      refine err.trans ⟨fun h => .inl ⟨.inr rfl, h⟩, ?_⟩
      rintro (⟨_, h⟩ | ⟨a, _, h, ha, _⟩)
      · exact h
      · cases h; exact absurd rfl ha
    · simp only [selfName, if_neg ha]
      constructor
      · intro h
        obtain ⟨x, hx, hy⟩ := Option.map_eq_some_iff.1 h
        obtain ⟨r1, s1⟩ := x
        cases hy
        exact .inr ⟨a, s1, rfl, ha, hx, rfl⟩
      · rintro (⟨h | h, _⟩ | ⟨a', s', h, _, h1, rfl⟩)
        · cases h
        · cases h; exact absurd rfl ha
        · cases h
          rw [h1]
          rfl

/-- C59: a module that uses none of the features is returned as it is, and nothing else happens; no matter whether it is
given as text, as a tree or as a list of statements. -/
theorem C59_plain (T : Tools υ μ D) (fn : Str) (self : Option String) (src : Source) (p : Proc υ) (t : Val)
    (how : ∀ c, T.isOwn c = true → T.isMarker c = true) (hg : Given T src t) (ht : Plain T p t) (hr : p.registry = [])
    (r : Except Exc Val) (p' : Proc υ) : Expands T fn self src p r p' ↔ r = .ok t ∧ p' = p := by
  have key : Expands T fn self src p (.ok t) p := plain_expands how hg ht hr
  constructor
  · intro h
    exact h.det key
  · rintro ⟨rfl, rfl⟩
    exact key

/-- C59: text, tree and list of statements give the same, when no dialect transforms the text. -/
theorem C59_forms (T : Tools υ μ D) (fn : Str) (self : Option String) (src : Source) (p : Proc υ) (t : Val)
    (hk : t.isK .Module = true) (hb : ∃ body, t.get? .body = some (.list body))
    (hs : ∀ x ∈ Dialects.stmts t, ∃ k l fs, x = .node (.py k) l fs ∧ k.isStmt = true) (hg : Given T src t)
    (r : Except Exc Val) (p' : Proc υ) : Expands T fn self src p r p' ↔ Expands T fn self (.tree t) p r p' := by
  have h : ∀ n, Compiler.expand T fn self (n + 1) src p = Compiler.expand T fn self (n + 1) (.tree t) p := fun n =>
    (given_run hg hk hb n).trans (given_run (.tree hs) hk hb n).symm
  constructor
  · rintro ⟨n, h'⟩
    exact ⟨n + 1, h n ▸ expand_mono T fn self (Nat.le_succ n) src p _ h'⟩
  · rintro ⟨n, h'⟩
    exact ⟨n + 1, h n ▸ expand_mono T fn self (Nat.le_succ n) (.tree t) p _ h'⟩

/-- C59: something that is not source code raises TypeError, and so does a list of statements, or a module, with
something else in it. -/
theorem C59_type_errors (T : Tools υ μ D) (fn : Str) (self : Option String) (p : Proc υ) (r : Except Exc Val)
    (p' : Proc υ) :
    (Expands T fn self .other p r p' ↔ r = .error (.py .typeError) ∧ p' = p) ∧
    (∀ t, t.isK .Module = false → (Expands T fn self (.tree t) p r p' ↔ r = .error (.py .typeError) ∧ p' = p)) ∧
    (∀ xs x, x ∈ xs → (∀ k l fs, x = .node (.py k) l fs → k.isStmt = false) →
      (Expands T fn self (.list xs) p r p' ↔ r = .error (.py .typeError) ∧ p' = p)) ∧
    (∀ t xs x, t.isK .Module = true → t.get? .body = some (.list xs) → x ∈ xs →
      (∀ k l fs, x = .node (.py k) l fs → k.isStmt = false) →
      (Expands T fn self (.tree t) p r p' ↔ r = .error (.py .typeError) ∧ p' = p)) := by
  have key : ∀ src, Compiler.expand T fn self 0 src p = some (.error (.py .typeError), p) →
      (Expands T fn self src p r p' ↔ r = .error (.py .typeError) ∧ p' = p) := by
    intro src h
    constructor
    · intro h'
      exact h'.det ⟨0, h⟩
    · rintro ⟨rfl, rfl⟩
      exact ⟨0, h⟩
  have bad : ∀ t xs x, t.get? .body = some (.list xs) → x ∈ xs → (∀ k l fs, x = .node (.py k) l fs → k.isStmt = false) →
      checkBody t = .error .typeError := by
    intro t xs x hb hx hn
    unfold checkBody
    rw [hb]
    dsimp only
    rw [if_neg]
    intro ha
    have := List.all_eq_true.1 ha x hx
    cases x with
    | const c => cases this
    | list xs => cases this
    | node c l fs =>
      cases c with
      | marker m => cases this
      | py k => rw [show Compiler.isStmt (.node (.py k) l fs) = k.isStmt from rfl, hn k l fs rfl] at this; cases this
  refine ⟨key _ rfl, fun t ht => key _ ?_, fun xs x hx hn => key _ ?_, fun t xs x hk hb hx hn => key _ ?_⟩
  · unfold Compiler.expand
    rw [expandWith, if_neg (by simp [ht])]
    rfl
  · unfold Compiler.expand
    rw [expandWith, bad (mk .Module [(.body, .list xs), (.type_ignores, .list [])]) xs x rfl hx hn]
    rfl
  · unfold Compiler.expand
    rw [expandWith, if_pos hk, bad t xs x hb hx hn]
    rfl

/-- C59: text that cannot be parsed raises ImportError. -/
theorem C59_parse_error (T : Tools υ μ D) (fn : Str) (self : Option String) (p : Proc υ) (text : Str)
    (hi : HasImports [] text) (hp : T.parse text = none) (r : Except Exc Val) (p' : Proc υ) :
    Expands T fn self (.str text) p r p' ↔ r = .error (.py .importError) ∧ p' = p := by
  have h : Compiler.expand T fn self 1 (.str text) p = some (.error (.py .importError), p) := by
    unfold Compiler.expand
    rw [expandWith, expandText_none hi, hp]
    rfl
  constructor
  · intro h'
    exact h'.det ⟨1, h⟩
  · rintro ⟨rfl, rfl⟩
    exact ⟨1, h⟩

/-! ### Concrete cases -/
section
open Compiler.Ex

/-- The names at the top level. -/
private def shown (t : Val) : List Val := (Dialects.stmts t).map fun s =>
  if s.isK .Import then .str "import" else ((s.get? .value).bind (·.get? .id)).getD .none

-- all stages: the dialect `f` adds a name, the macro is expanded, the postprocessor that it has registered is called, and
-- then the one of the dialect `g`
example : (Compiler.expand tools "/home/u/m.py".toList none 10 (.tree full) Ex.start).map
      (fun r => (r.1.map shown, r.2.registry, r.2.user)) =
    some (.ok [.str "import", .str "import", .str "x", .str "f", .str "post_7", .str "post_g"], [7], ["lib"]) := by
  decide +kernel

-- a macro that raises: the module has been imported, the dialects' postprocessors are not called
example : (Compiler.expand tools "/home/u/m.py".toList none 10 (.tree fails) Ex.start).map (fun r => (r.1.map shown, r.2)) =
    some (.error (.app ["a.py:1: x", "in expr macro invocation for 'e'"] (.user 7 true)), ⟨[("e", 2)], [], ["lib"]⟩) := by
  decide +kernel

private theorem parsed_of {body : List Val} (h : (body.all fun t => !t.isK .ImportFrom ||
      (match t.get? .names with | some (.list (a :: _)) => (a.get? .name).isSome | _ => false) &&
      (decide ((Expander.locOf t).lineno = .missing → (Expander.locOf t).colOffset = .missing))) = true) :
    FindMacros.Parsed body := by
  intro t ht
  have := List.all_eq_true.1 h t ht
  cases hk : t.isK .ImportFrom with
  | false => exact ⟨(by intro h; cases h), (by intro h; cases h)⟩
  | true =>
    rw [hk] at this
    simp only [Bool.not_true, Bool.false_or, Bool.and_eq_true] at this
    refine ⟨fun _ => ?_, fun _ => of_decide_eq_true this.2⟩
    have h1 := this.1
    split at h1
    · rename_i a as hn
      obtain ⟨n, hn'⟩ := Option.isSome_iff_exists.1 h1
      exact ⟨a, as, n, hn, hn'⟩
    · cases h1

private theorem names_of {body : List Val} (h : (body.all fun t => match t.get? .names with
      | some (.list as) => as.all fun a => (a.get? .name).isSome
      | _ => true) = true) :
    ∀ s ∈ body, ∀ as, s.get? .names = some (.list as) → s.isK .ImportFrom = true → ∀ a ∈ as, (a.get? .name).isSome = true := by
  intro s hs as ha _
  have := List.all_eq_true.1 h s hs
  rw [ha] at this
  exact List.all_eq_true.1 this

private theorem not_multiphase {t : Val} (h : ((Dialects.stmts t).all fun s =>
    !(decide (s.get? .module_ = some (.str "mcpyrate.multiphase")))) = true) : ¬ Multiphase t := by
  rintro ⟨s, hs, _, h2, _⟩
  have := List.all_eq_true.1 h s hs
  simp [h2] at this

-- C59_stages, C59_raises: the hypotheses hold
example : ReturnsParsed tools.dialects ∧ KeepRegistry tools.post := by
  refine ⟨fun d m c s c' s' hm hc hr => ?_, ?_⟩
  · cases hm
    dsimp only at hr
    split at hr <;> cases hr
    obtain ⟨body, hb, hp⟩ := hc
    have hst : Dialects.stmts c = body := by unfold Dialects.stmts; rw [hb]
    refine ⟨body ++ [exprStmt (name "f")], ?_, fun u hu => ?_⟩
    · rw [← hst]
      exact Expander.withField_get hb
    · rcases List.mem_append.1 hu with hu | hu
      · exact hp u hu
      · cases List.mem_singleton.1 hu
        exact ⟨(by intro h; cases h), (by intro h; cases h)⟩
  · intro f t s r s' h
    cases h
    rfl

-- …and for both modules
example : (ParsedModule full ∧ ¬ Multiphase full) ∧ ParsedModule fails ∧ ¬ Multiphase fails := by
  refine ⟨⟨⟨rfl, _, rfl, parsed_of (by decide), names_of (by decide)⟩, not_multiphase (by decide)⟩,
    ⟨rfl, _, rfl, parsed_of (by decide), names_of (by decide)⟩, not_multiphase (by decide)⟩

-- C59_multiphase
example : ParsedModule phased ∧ Multiphase phased ∧ Given tools (.tree phased) phased := by
  refine ⟨⟨rfl, _, rfl, parsed_of (by decide), names_of (by decide)⟩, ⟨_, List.mem_singleton.2 rfl, by decide, rfl, rfl, _, _, _, rfl,
    List.mem_singleton.2 rfl, rfl⟩, .tree ?_⟩
  intro x hx
  cases List.mem_singleton.1 hx
  exact ⟨_, _, _, rfl, rfl⟩

private theorem text_plain : HasImports [] "x = y".toList :=
  ⟨["x = y".toList], rfl, .ordinary (by decide) (.inl (by decide)) .nil, by
    intro pre s trail post h hs _
    exfalso
    have : pre = [] := by
      cases pre with
      | nil => rfl
      | cons _ pre => cases pre <;> cases h
    subst this
    obtain ⟨w1, m, w2, w3, ns, rfl, _⟩ := hs
    have h' : "x = y".toList.head? = some 'f' := by
      rw [List.nil_append] at h
      injection h with h
      rw [h]
      rfl
    revert h'
    decide⟩

-- C59_plain, C59_forms: as text, as bytes, as a tree, and as a list
example : Given tools (.str "x = y".toList) plain ∧ Given tools (.bytes [1]) plain ∧ Given tools (.tree plain) plain ∧
    Given tools (.list [assign]) plain := by
  have h : ∀ x ∈ [assign], ∃ k l fs, x = .node (.py k) l fs ∧ k.isStmt = true := by
    intro x hx
    cases List.mem_singleton.1 hx
    exact ⟨_, _, _, rfl, rfl⟩
  exact ⟨.str text_plain rfl, .bytes rfl (.str text_plain rfl), .tree h, .list h⟩

example : Plain tools Ex.start plain where
  module_ := rfl
  parsed := ⟨rfl, _, rfl, parsed_of (by decide), names_of (by decide)⟩
  tree := rfl
  once := by intro c l fs h; cases h; decide
  dialects := rfl
  macros := rfl
  invocations := by
    intro u hu
    have hm : u ∈ preorder plain := reach_mem_preorder hu.reach (hu.isAST rfl)
    simp only [plain, Ex.module_, assign, preorder, preorderL, preorderF, name, mk, List.append_nil,
      List.cons_append, List.nil_append, List.mem_cons, List.not_mem_nil, or_false] at hm
    rcases hm with rfl | rfl | rfl | rfl | rfl | rfl <;>
      refine ⟨rfl, fun h => ?_⟩ <;>
      cases h <;> simp_all [Val.isK, Val.get?, Expander.Names]
    all_goals
      rename_i h1 h2 h3 h4
      subst h1
      cases h3
  markers := by
    intro u hu
    cases hc : u.hasCls tools.isMarker with
    | false => rfl
    | true =>
      have ha : u.isAST = true := by cases u <;> first | rfl | cases hc
      have := List.all_eq_true.1 (show ((preorder plain).all fun u => !u.hasCls tools.isMarker) = true by decide) u
        (reach_mem_preorder hu ha)
      rw [hc] at this
      cases this
  fields := by
    intro k l fs hu
    have hm := reach_mem_preorder hu rfl
    simp only [plain, Ex.module_, assign, preorder, preorderL, preorderF, name, mk, List.append_nil,
      List.cons_append, List.nil_append, List.mem_cons, List.not_mem_nil, or_false] at hm
    rcases hm with h | h | h | h | h | h <;> cases h <;> decide
  targets := .of_valid (by decide)
  contexts := .of_valid (by decide)

end

end Mcpyrate
