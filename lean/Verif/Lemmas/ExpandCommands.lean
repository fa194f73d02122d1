import Verif.Lemmas.ExpandQuoted
import Verif.Lemmas.ExpandUnquoted
import Verif.Lemmas.Output
/-
Static expansion of quotes with unquotes in them, where the quote is a macro invocation in the argument (C53): the
generated code passes through `fix_locations` and `fix_ctx` before it is turned back.
-/
namespace Mcpyrate.ExpandStatic
open Py Expander QuoteOps
open Quotes (Host Q copyLocation shaped unastify unastifyL unastifyPairs template templateL templateF)

variable {υ σ : Type}

/-! ### code that can be turned back -/

/-- A call. -/
def callOf (l : Loc) (f : Val) (as ks : List Val) : Val :=
  .node (.py .Call) l [(.func, f), (.args, .list as), (.keywords, .list ks)]

def constOf (l : Loc) (k : Const) : Val := .node (.py .Constant) l [(.value, .const k), (.kind, .none)]

/-- The commands that have a body only, and the functions that they are compiled to. -/
def plainCommands : List (String × String) := [("Unquote", "astify"), ("ASTList", "ast_list"), ("ASTTuple", "ast_tuple")]
/-- The other commands. -/
def otherCommands : List (String × F × String) :=
  [("LiftSourcecode", .filename, "lift_sourcecode"), ("ASTLiteral", .syntax_, "ast_literal"), ("Capture", .name, "capture_value")]

mutual
/-- The code `c` is turned back into `x`. -/
inductive Un : Val → Val → Prop
  | const {l k} : Un (constOf l k) (.const k)
  | list {l cs e xs} : Extra e → UnL cs xs → Un (.node (.py .List) l ((.elts, .list cs) :: e)) (.list xs)
  | node {l f cs k fs} : Refers ["mcpyrate", "quotes", "ast", k.text] f → shaped k (Obj.ofFields fs) = true → UnF cs fs →
      Un (callOf l f [] cs) (.node (.py k) (copyLocation (.py k) {} (.py .Call) l) fs)
  | done {l f cs x} : Refers ["mcpyrate", "quotes", "Done"] f → UnF cs [(.body, x)] →
      Un (callOf l f [] cs) (.node (.marker "Done") {} [(.body, x)])
  | plain {l f n fn b} : (n, fn) ∈ plainCommands → Refers ["mcpyrate", "quotes", fn] f →
      Un (callOf l f [b] []) (marker n [(.body, b)])
  | other {l f n g fn b l2 k} : (n, g, fn) ∈ otherCommands → Refers ["mcpyrate", "quotes", fn] f →
      Un (callOf l f [b, constOf l2 k] []) (marker n [(.body, b), (g, .const k)])
inductive UnL : List Val → List Val → Prop
  | nil : UnL [] []
  | cons {c x cs xs} : Un c x → UnL cs xs → UnL (c :: cs) (x :: xs)
inductive UnF : List Val → Fields → Prop
  | nil : UnF [] []
  | cons {l f c x cs fs} : Un c x → UnF cs fs →
      UnF (.node (.py .keyword) l [(.arg, .str f.text), (.value, c)] :: cs) ((f, x) :: fs)
end

/-! ### other locations and contexts -/

theorem likeL_nil {ys : List Val} (h : LikeL [] ys) : ys = [] := by cases h; rfl

theorem likeL_cons {x : Val} {xs ys : List Val} (h : LikeL (x :: xs) ys) :
    ∃ y ys', ys = y :: ys' ∧ Like x y ∧ LikeL xs ys' := by
  cases h with
  | same h => exact ⟨x, _, rfl, .refl x, h⟩
  | cons h1 h2 => exact ⟨_, _, rfl, h1, h2⟩

theorem like_const {k : Const} {y : Val} (h : Like (.const k) y) : y = .const k := by cases h; rfl

theorem like_list {xs : List Val} {y : Val} (h : Like (.list xs) y) : ∃ ys, y = .list ys ∧ LikeL xs ys := by
  cases h with
  | list h => exact ⟨_, rfl, h⟩

theorem like_node {c : Cls} {l : Loc} {fs : Fields} {y : Val} (h : Like (.node c l fs) y) :
    ∃ l' fs', y = .node c l' fs' ∧ LikeF c fs fs' := by
  cases h with
  | node h _ => exact ⟨_, _, rfl, h⟩

theorem likeF_nil {c : Cls} {gs : Fields} (hc : c.hasCtx = false) (h : LikeF c [] gs) : gs = [] := by
  cases h with
  | nil => rfl
  | extra h => rw [hc] at h; cases h

theorem likeF_cons {c : Cls} {f : F} {v : Val} {fs gs : Fields} (hf : f ≠ .ctx) (h : LikeF c ((f, v) :: fs) gs) :
    ∃ v' gs', gs = (f, v') :: gs' ∧ Like v v' ∧ LikeF c fs gs' := by
  cases h with
  | field h1 h2 => exact ⟨_, _, rfl, h1, h2⟩
  | ctx => exact absurd rfl hf

theorem extra_like {c : Cls} {e e' : Fields} (he : Extra e) (h : LikeF c e e') : Extra e' := by
  induction e generalizing e' with
  | nil =>
    cases h with
    | nil => exact he
    | extra => intro p hp; rcases List.mem_singleton.mp hp with rfl; rfl
  | cons p e ih =>
    obtain ⟨f, v⟩ := p
    have hf : f = .ctx := he (f, v) List.mem_cons_self
    have he' : Extra e := fun p hp => he p (List.mem_cons_of_mem _ hp)
    cases h with
    | field _ h =>
      intro p hp
      rcases List.mem_cons.mp hp with rfl | hp
      · exact hf
      · exact ih he' h p hp
    | ctx _ _ h =>
      intro p hp
      rcases List.mem_cons.mp hp with rfl | hp
      · rfl
      · exact ih he' h p hp

theorem refers_like {p : List String} {v v' : Val} (hr : Refers p v) (h : Like v v') : Refers p v' := by
  induction hr generalizing v' with
  | name he =>
    obtain ⟨l', fs', rfl, j1⟩ := like_node h
    obtain ⟨_, gs, rfl, h1, h2⟩ := likeF_cons (by decide) j1
    cases like_const h1
    exact .name (extra_like he h2)
  | attr _ he ih =>
    obtain ⟨l', fs', rfl, j2⟩ := like_node h
    obtain ⟨_, _, rfl, h1, j3⟩ := likeF_cons (by decide) j2
    obtain ⟨_, gs, rfl, h2, j4⟩ := likeF_cons (by decide) j3
    cases like_const h2
    exact .attr (ih h1) (extra_like he j4)

theorem like_call {l : Loc} {f : Val} {as ks : List Val} {y : Val} (h : Like (callOf l f as ks) y) :
    ∃ l' f' as' ks', y = callOf l' f' as' ks' ∧ Like f f' ∧ LikeL as as' ∧ LikeL ks ks' := by
  obtain ⟨l', fs', rfl, j5⟩ := like_node h
  obtain ⟨f', _, rfl, h1, j6⟩ := likeF_cons (by decide) j5
  obtain ⟨_, _, rfl, h2, j7⟩ := likeF_cons (by decide) j6
  obtain ⟨_, _, rfl, h3, j8⟩ := likeF_cons (by decide) j7
  obtain ⟨as', rfl, j9⟩ := like_list h2
  obtain ⟨ks', rfl, j10⟩ := like_list h3
  cases likeF_nil rfl j8
  exact ⟨l', f', as', ks', rfl, h1, j9, j10⟩

theorem like_constOf {l : Loc} {k : Const} {y : Val} (h : Like (constOf l k) y) : ∃ l', y = constOf l' k := by
  obtain ⟨l', fs', rfl, j11⟩ := like_node h
  obtain ⟨_, _, rfl, h1, j12⟩ := likeF_cons (by decide) j11
  obtain ⟨_, _, rfl, h2, j13⟩ := likeF_cons (by decide) j12
  cases like_const h1
  cases like_const h2
  cases likeF_nil rfl j13
  exact ⟨l', rfl⟩

mutual
theorem Un.like {c x c' : Val} (h : Un c x) (hl : Like c c') : ∃ x', Un c' x' ∧ Like x x' := by
  match h with
  | .const =>
    obtain ⟨l', rfl⟩ := like_constOf hl
    exact ⟨_, .const, .const _⟩
  | .list he h =>
    obtain ⟨l', fs', rfl, j14⟩ := like_node hl
    obtain ⟨_, e', rfl, h1, j15⟩ := likeF_cons (by decide) j14
    obtain ⟨cs', rfl, j16⟩ := like_list h1
    obtain ⟨xs', h2, h3⟩ := UnL.like h j16
    exact ⟨_, .list (extra_like he j15) h2, .list h3⟩
  | .node hr hs h =>
    obtain ⟨l', f', as', ks', rfl, h1, h2, h3⟩ := like_call hl
    cases likeL_nil h2
    obtain ⟨fs', h4, h5, h6⟩ := UnF.like h h3
    refine ⟨_, .node (refers_like hr h1) ?_ h4, .node (h5 _) fun _ => by simpa using congrArg List.length h6⟩
    exact (Quotes.shaped_congr (by rw [Quotes.ofFields_names, Quotes.ofFields_names, h6])).trans hs
  | .done hr h =>
    obtain ⟨l', f', as', ks', rfl, h1, h2, h3⟩ := like_call hl
    cases likeL_nil h2
    obtain ⟨fs', h4, h5, h6⟩ := UnF.like h h3
    match fs', h6 with
    | [(g, x')], h6 =>
      simp only [List.map_cons, List.map_nil, List.cons.injEq, and_true] at h6
      subst h6
      exact ⟨_, .done (refers_like hr h1) h4, .node (h5 _) fun _ => rfl⟩
  | .plain hm hr =>
    obtain ⟨l', f', as', ks', rfl, h1, h2, h3⟩ := like_call hl
    cases likeL_nil h3
    obtain ⟨b', _, rfl, h4, j17⟩ := likeL_cons h2
    cases likeL_nil j17
    exact ⟨_, .plain hm (refers_like hr h1), .node (.field h4 .nil) fun _ => rfl⟩
  | .other hm hr =>
    obtain ⟨l', f', as', ks', rfl, h1, h2, h3⟩ := like_call hl
    cases likeL_nil h3
    obtain ⟨b', _, rfl, h4, j18⟩ := likeL_cons h2
    obtain ⟨k', _, rfl, h5, j19⟩ := likeL_cons j18
    cases likeL_nil j19
    obtain ⟨l2', rfl⟩ := like_constOf h5
    exact ⟨_, .other hm (refers_like hr h1), .node (.field h4 (.field (.refl _) .nil)) fun _ => rfl⟩
theorem UnL.like {cs xs cs' : List Val} (h : UnL cs xs) (hl : LikeL cs cs') : ∃ xs', UnL cs' xs' ∧ LikeL xs xs' := by
  match h with
  | .nil => cases likeL_nil hl; exact ⟨_, .nil, .nil⟩
  | .cons h1 h2 =>
    obtain ⟨c', cs', rfl, l1, l2⟩ := likeL_cons hl
    obtain ⟨x', h3, h4⟩ := Un.like h1 l1
    obtain ⟨xs', h5, h6⟩ := UnL.like h2 l2
    exact ⟨_, .cons h3 h5, .cons h4 h6⟩
theorem UnF.like {cs cs' : List Val} {fs : Fields} (h : UnF cs fs) (hl : LikeL cs cs') :
    ∃ fs', UnF cs' fs' ∧ (∀ c, LikeF c fs fs') ∧ fs'.map (·.1) = fs.map (·.1) := by
  match h with
  | .nil => cases likeL_nil hl; exact ⟨_, .nil, fun _ => .nil, rfl⟩
  | .cons h1 h2 =>
    obtain ⟨c', cs', rfl, l1, l2⟩ := likeL_cons hl
    obtain ⟨l', gs', rfl, j20⟩ := like_node l1
    obtain ⟨_, _, rfl, l3, j21⟩ := likeF_cons (by decide) j20
    obtain ⟨_, _, rfl, l4, j22⟩ := likeF_cons (by decide) j21
    cases like_const l3
    cases likeF_nil rfl j22
    obtain ⟨x', h3, h4⟩ := Un.like h1 l4
    obtain ⟨fs', h5, h6, h7⟩ := UnF.like h2 l2
    exact ⟨_, .cons h3 h5, fun c => .field h4 (h6 c), by simp [h7]⟩
end

/-! ### turning it back -/

theorem unastify_command (H : Host σ) (l : Loc) {fn : String} {f : Obj} {fs : List (F × Obj)} {m : Q σ Obj}
    (hd : Quotes.dotted f [] = some ["mcpyrate", "quotes", fn]) (hfn : fn ≠ "splice_ast_literals")
    (h : Quotes.uncall H fn ((.func, f) :: fs) = some m) : unastify H (.node (.py .Call) l ((.func, f) :: fs)) = m := by
  have e : unastify H (.node (.py .Call) l ((.func, f) :: fs)) =
      (if Quotes.dotted f [] = some ["mcpyrate", "quotes", "splice_ast_literals"] then
          Quotes.unastifyArg H ((.func, f) :: fs)
        else
          match (match Quotes.dotted f [] with
            | some ["mcpyrate", "quotes", n] => Quotes.uncall H n ((.func, f) :: fs)
            | _ => none) with
          | some m => m
          | none => do
            let callee ← Quotes.lookupThing H (Quotes.dotted f [])
            let args ← Quotes.unastifyListAt H .args ((.func, f) :: fs)
            let kws ← Quotes.unastifyPairsAt H ((.func, f) :: fs)
            let node ← Quotes.call H callee args (← Quotes.lift (Quotes.toKwargs kws))
            Quotes.lift (Quotes.relocate node (.py .Call) l)) := rfl
  rw [e, hd, if_neg (by simpa using hfn)]
  show (match Quotes.uncall H fn ((.func, f) :: fs) with | some m => m | none => _) = m
  rw [h]

mutual
theorem Un.unastify (H : Host σ) {c x : Val} (h : Un c x) : unastify H (.ofVal c) = pure (.ofVal x) := by
  match h with
  | .const => rfl
  | .list (l := l) (cs := cs) (e := e) (xs := xs) _ h =>
    have : Quotes.unastify H (.ofVal (.node (.py .List) l ((.elts, .list cs) :: e))) =
      (do return Obj.list (← Quotes.unastifyL H (Obj.ofVals cs))) := rfl
    rw [this, UnL.unastifyL H h]
    rfl
  | .node (l := l) (f := f) (cs := cs) (k := k) (fs := fs) hr hs h =>
    have e : Obj.ofVal (callOf l f [] cs) =
      .node (.py .Call) l [(.func, .ofVal f), (.args, .list []), (.keywords, .list (Obj.ofVals cs))] := rfl
    have hnd : ((Obj.ofFields fs).map (·.1)).Nodup := by
      have := hs
      unfold shaped at this
      rw [Bool.and_eq_true] at this
      exact (List.isSublist_iff_sublist.1 this.1).nodup k.nodup_fields
    rw [e, Quotes.unastify_general H _ _ _ _ ["mcpyrate", "quotes", "ast", k.text] (hr.dotted []) (by simp) (by simp),
      Quotes.lookupThing_class, M.pure_bind', UnF.unastifyPairs H h]
    show (do
      let node ← Quotes.call H _ [] (← Quotes.lift (Quotes.toKwargs ((Obj.ofFields fs).map fun (p : F × Obj) => (.str p.1.text, p.2))))
      Quotes.lift (Quotes.relocate node (.py .Call) _)) = _
    rw [Quotes.toKwargs_ok _ hnd]
    show (Quotes.call H _ [] ((Obj.ofFields fs).map fun p => (p.1.text, p.2)) >>= fun node => _) = _
    rw [Quotes.call_class H hs, M.pure_bind']
    rfl
  | .done (l := l) (f := f) (cs := cs) (x := x) hr h =>
    have e : Obj.ofVal (callOf l f [] cs) =
      .node (.py .Call) l [(.func, .ofVal f), (.args, .list []), (.keywords, .list (Obj.ofVals cs))] := rfl
    rw [e, Quotes.unastify_general H _ _ _ _ ["mcpyrate", "quotes", "Done"] (hr.dotted []) (by simp) (by
        intro n hn
        simp only [List.cons.injEq, and_true, true_and] at hn
        subst hn
        rfl), Quotes.lookupThing_done, M.pure_bind', UnF.unastifyPairs H h]
    show (do
      let node ← Quotes.call H (.ref ["mcpyrate", "quotes", "Done"]) [] (← Quotes.lift (Quotes.toKwargs ((Obj.ofFields [(.body, x)]).map fun (p : F × Obj) => (.str p.1.text, p.2))))
      Quotes.lift (Quotes.relocate node (.py .Call) l)) = _
    rw [Quotes.toKwargs_ok _ (by simp [Obj.ofFields])]
    show (Quotes.call H (.ref ["mcpyrate", "quotes", "Done"]) [] [("body", .ofVal x)] >>= fun node => _) = _
    rw [Quotes.call_done]
    rfl
  | .plain (l := l) (n := n) (fn := fn) (b := b) hm hr =>
    have hd := hr.dotted []
    simp only [plainCommands, List.mem_cons, Prod.mk.injEq, List.not_mem_nil, or_false] at hm
    rcases hm with ⟨rfl, rfl⟩ | ⟨rfl, rfl⟩ | ⟨rfl, rfl⟩ <;> exact unastify_command H l hd (by decide) rfl
  | .other (l := l) (b := b) hm hr =>
    have hd := hr.dotted []
    simp only [otherCommands, List.mem_cons, Prod.mk.injEq, List.not_mem_nil, or_false] at hm
    rcases hm with ⟨rfl, rfl, rfl⟩ | ⟨rfl, rfl, rfl⟩ | ⟨rfl, rfl, rfl⟩ <;> exact unastify_command H l hd (by decide) rfl
theorem UnL.unastifyL (H : Host σ) {cs xs : List Val} (h : UnL cs xs) : unastifyL H (Obj.ofVals cs) = pure (Obj.ofVals xs) := by
  match h with
  | .nil => rfl
  | .cons h1 h2 => simp only [Obj.ofVals, Quotes.unastifyL, Un.unastify H h1, UnL.unastifyL H h2, M.pure_bind']
theorem UnF.unastifyPairs (H : Host σ) {cs : List Val} {fs : Fields} (h : UnF cs fs) :
    unastifyPairs H (Obj.ofVals cs) = pure ((Obj.ofFields fs).map fun p => (.str p.1.text, p.2)) := by
  match h with
  | .nil => rfl
  | .cons (l := l) (f := f) (c := c) (cs := cs) h1 h2 =>
    have e : Quotes.unastifyPairs H (Obj.ofVals (.node (.py .keyword) l [(.arg, .str f.text), (.value, c)] :: cs)) = (do
      let v ← Quotes.unastify H (.ofVal c)
      return (.str f.text, v) :: (← Quotes.unastifyPairs H (Obj.ofVals cs))) := rfl
    rw [e, Un.unastify H h1, M.pure_bind', UnF.unastifyPairs H h2, M.pure_bind']
    rfl
end

/-! ### code as it is generated -/

/-- An expression that refers to a thing in a module, as it is generated. -/
inductive Ref : List String → Val → Prop
  | name {l n} : Ref [n] (.node (.py .Name) l [(.id, .str n)])
  | attr {l p v a} : Ref p v → Ref (p ++ [a]) (.node (.py .Attribute) l [(.value, v), (.attr, .str a)])

theorem Ref.refers {p : List String} {v : Val} (h : Ref p v) : Refers p v := by
  induction h with
  | name => exact .name .nil
  | attr _ ih => exact .attr ih .nil

mutual
/-- The generated code `c` is turned back into `x`. -/
inductive Raw : Val → Val → Prop
  | const {l k} : Raw (constOf l k) (.const k)
  | list {l cs xs} : RawL cs xs → Raw (.node (.py .List) l [(.elts, .list cs)]) (.list xs)
  | node {l f cs k fs} : Ref ["mcpyrate", "quotes", "ast", k.text] f → shaped k (Obj.ofFields fs) = true → RawF cs fs →
      Raw (callOf l f [] cs) (.node (.py k) (copyLocation (.py k) {} (.py .Call) l) fs)
  | done {l f cs x} : Ref ["mcpyrate", "quotes", "Done"] f → RawF cs [(.body, x)] →
      Raw (callOf l f [] cs) (.node (.marker "Done") {} [(.body, x)])
  | plain {l f n fn b} : (n, fn) ∈ plainCommands → Ref ["mcpyrate", "quotes", fn] f →
      Raw (callOf l f [b] []) (marker n [(.body, b)])
  | other {l f n g fn b l2 k} : (n, g, fn) ∈ otherCommands → Ref ["mcpyrate", "quotes", fn] f →
      Raw (callOf l f [b, constOf l2 k] []) (marker n [(.body, b), (g, .const k)])
inductive RawL : List Val → List Val → Prop
  | nil : RawL [] []
  | cons {c x cs xs} : Raw c x → RawL cs xs → RawL (c :: cs) (x :: xs)
inductive RawF : List Val → Fields → Prop
  | nil : RawF [] []
  | cons {l f c x cs fs} : Raw c x → RawF cs fs →
      RawF (.node (.py .keyword) l [(.arg, .str f.text), (.value, c)] :: cs) ((f, x) :: fs)
end

mutual
theorem Raw.un {c x : Val} (h : Raw c x) : Un c x := by
  match h with
  | .const => exact .const
  | .list h => exact .list .nil h.un
  | .node hr hs h => exact .node hr.refers hs h.un
  | .done hr h => exact .done hr.refers h.un
  | .plain hm hr => exact .plain hm hr.refers
  | .other hm hr => exact .other hm hr.refers
theorem RawL.un {cs xs : List Val} (h : RawL cs xs) : UnL cs xs := by
  match h with
  | .nil => exact .nil
  | .cons h1 h2 => exact .cons h1.un h2.un
theorem RawF.un {cs : List Val} {fs : Fields} (h : RawF cs fs) : UnF cs fs := by
  match h with
  | .nil => exact .nil
  | .cons h1 h2 => exact .cons h1.un h2.un
end

/-! ### compiling -/

theorem refers_quotes (fn : String) : ∃ v, Obj.ofVal v = Quotes.quotesAttr fn ∧ Ref ["mcpyrate", "quotes", fn] v :=
  ⟨mk .Attribute [(.value, mk .Attribute [(.value, mk .Name [(.id, .str "mcpyrate")]), (.attr, .str "quotes")]), (.attr, .str fn)],
    rfl, .attr (p := ["mcpyrate", "quotes"]) (.attr (p := ["mcpyrate"]) .name)⟩

theorem refers_class (k : K) : ∃ v, Obj.ofVal v = Quotes.attributeNode (Quotes.quotesAttr "ast") k.text ∧
    Ref ["mcpyrate", "quotes", "ast", k.text] v := by
  obtain ⟨v, h1, h2⟩ := refers_quotes "ast"
  exact ⟨mk .Attribute [(.value, v), (.attr, .str k.text)], by rw [← h1]; rfl,
    .attr (p := ["mcpyrate", "quotes", "ast"]) h2⟩

theorem ofFields_one {fs : Fields} {g : F} {x : Obj} (h : Obj.ofFields fs = [(g, x)]) : ∃ e, fs = [(g, e)] ∧ Obj.ofVal e = x := by
  match fs, h with
  | [(f, e)], h => cases h; exact ⟨e, rfl, rfl⟩

theorem ofFields_two {fs : Fields} {f g : F} {x : Obj} {k : Const} (h : Obj.ofFields fs = [(f, x), (g, .const k)]) :
    ∃ e, fs = [(f, e), (g, .const k)] ∧ Obj.ofVal e = x := by
  match fs, h with
  | [(f, e), (g, v)], h =>
    simp only [Obj.ofFields, List.cons.injEq, Prod.mk.injEq, and_true] at h
    obtain ⟨⟨rfl, rfl⟩, rfl, hv⟩ := h
    cases v with
    | const c => cases hv; exact ⟨e, rfl, rfl⟩
    | list | node => cases hv
  | (_, _) :: (_, _) :: _ :: _, h => simp [Obj.ofFields] at h

theorem astify_command {H : Host σ} {B : Option (String → Option Obj)} {n : String} {l : Loc} {fs : Fields} (hd : n ≠ "Done")
    (h : (match Obj.ofFields fs with
      | [(.body, e)] => (n = "Unquote" || n = "ASTList" || n = "ASTTuple") && !e.isK .Starred
      | [(.body, e), (.filename, .const _)] => n = "LiftSourcecode" && !e.isK .Starred
      | [(.body, e), (.syntax_, .const _)] => n = "ASTLiteral" && !e.isK .Starred
      | [(.body, e), (.name, .const _)] => n = "Capture" && !e.isK .Starred && (Quotes.captured B e).isNone
      | _ => false) = true) :
    ∃ c x', Quotes.astify H B (.ofVal (.node (.marker n) l fs)) = pure (.ofVal c) ∧ Raw c x' ∧ Like (.node (.marker n) l fs) x' := by
  have one : ∀ {fn : String} {e : Val}, (n, fn) ∈ plainCommands → fs = [(.body, e)] →
      Quotes.astify H B (.ofVal (.node (.marker n) l fs)) = pure (Quotes.callNode (Quotes.quotesAttr fn) [.ofVal e] []) →
      ∃ c x', Quotes.astify H B (.ofVal (.node (.marker n) l fs)) = pure (.ofVal c) ∧ Raw c x' ∧ Like (.node (.marker n) l fs) x' := by
    rintro fn e hm rfl ha
    obtain ⟨f, h5, h6⟩ := refers_quotes fn
    refine ⟨callOf {} f [e] [], _, ?_, .plain hm h6, .node (.refl _ _) fun _ => rfl⟩
    rw [ha, ← h5]; rfl
  have two : ∀ {g : F} {fn : String} {e : Val} {k : Const}, (n, g, fn) ∈ otherCommands → fs = [(.body, e), (g, .const k)] →
      Quotes.astify H B (.ofVal (.node (.marker n) l fs)) =
        pure (Quotes.callNode (Quotes.quotesAttr fn) [.ofVal e, Quotes.constantNode k] []) →
      ∃ c x', Quotes.astify H B (.ofVal (.node (.marker n) l fs)) = pure (.ofVal c) ∧ Raw c x' ∧ Like (.node (.marker n) l fs) x' := by
    rintro g fn e k hm rfl ha
    obtain ⟨f, h5, h6⟩ := refers_quotes fn
    refine ⟨callOf {} f [e, constOf {} k] [], _, ?_, .other hm h6, .node (.refl _ _) fun _ => rfl⟩
    rw [ha, ← h5]; rfl
  split at h
  · rename_i x hx
    obtain ⟨e, rfl, rfl⟩ := ofFields_one hx
    simp only [Bool.and_eq_true, Bool.or_eq_true, decide_eq_true_eq] at h
    obtain ⟨(rfl | rfl) | rfl, -⟩ := h
    · exact one (fn := "astify") (by decide) rfl rfl
    · exact one (fn := "ast_list") (by decide) rfl rfl
    · exact one (fn := "ast_tuple") (by decide) rfl rfl
  · rename_i x k hx
    obtain ⟨e, rfl, rfl⟩ := ofFields_two hx
    simp only [Bool.and_eq_true, decide_eq_true_eq] at h
    obtain ⟨rfl, -⟩ := h
    exact two (fn := "lift_sourcecode") (by decide) rfl rfl
  · rename_i x k hx
    obtain ⟨e, rfl, rfl⟩ := ofFields_two hx
    simp only [Bool.and_eq_true, decide_eq_true_eq] at h
    obtain ⟨rfl, -⟩ := h
    exact two (fn := "ast_literal") (by decide) rfl rfl
  · rename_i x k hx
    obtain ⟨e, rfl, rfl⟩ := ofFields_two hx
    simp only [Bool.and_eq_true, decide_eq_true_eq, Option.isNone_iff_eq_none] at h
    obtain ⟨⟨rfl, -⟩, hc⟩ := h
    refine two (fn := "capture_value") (by decide) rfl ?_
    show (match Quotes.captured B (.ofVal e) with | some (f, name) => Quotes.captureMacro H f name | none => _) = _
    rw [hc]
    rfl
  · cases h

mutual
theorem astify_un (H : Host σ) (B : Option (String → Option Obj)) (x : Val) (h : template B (.ofVal x) = true) :
    ∃ c x', Quotes.astify H B (.ofVal x) = pure (.ofVal c) ∧ Raw c x' ∧ Like x x' := by
  match x with
  | .const k =>
    refine ⟨constOf {} k, .const k, ?_, .const, .const k⟩
    cases k <;> first | rfl | (exact absurd h (by simp [Obj.ofVal, template, Quotes.isComplex]))
  | .list xs =>
    obtain ⟨cs, ys, h1, h2, h3⟩ := astifyL_un H B xs (by simpa only [Obj.ofVal, template] using h)
    refine ⟨mk .List [(.elts, .list cs)], .list ys, ?_, .list h2, .list h3⟩
    simp only [Obj.ofVal, Quotes.astify, h1]; rfl
  | .node (.py k) l fs =>
    simp only [Obj.ofVal, template, Bool.and_eq_true] at h
    obtain ⟨cs, gs, h1, h2, h3, h4⟩ := astifyF_un H B fs h.2
    obtain ⟨f, h5, h6⟩ := refers_class k
    refine ⟨callOf (copyLocation (.py .Call) {} (.py k) l) f [] cs, _, ?_, .node h6 ?_ h2, .node (h3 _) fun _ => by simpa using congrArg List.length h4⟩
    · simp only [Obj.ofVal, Quotes.astify, h1, callOf, Obj.ofFields, h5, Obj.ofVals]; rfl
    · exact (Quotes.shaped_congr (by rw [Quotes.ofFields_names, Quotes.ofFields_names, h4])).trans h.1
  | .node (.marker n) l fs =>
    simp only [Obj.ofVal, template] at h
    by_cases hd : n = "Done"
    · subst hd
      simp only [if_true, Bool.and_eq_true, beq_iff_eq] at h
      obtain ⟨cs, gs, h1, h2, h3, h4⟩ := astifyF_un H B fs h.2
      obtain ⟨f, h5, h6⟩ := refers_quotes "Done"
      have hg : gs.map (·.1) = [F.body] := by rw [h4, ← Quotes.ofFields_names]; exact h.1
      match gs, hg, h2, h3, h4 with
      | [(g, x)], hg, h2, h3, h4 =>
        simp only [List.map_cons, List.map_nil, List.cons.injEq, and_true] at hg
        subst hg
        refine ⟨callOf {} f [] cs, _, ?_, .done h6 h2, .node (h3 _) fun _ => by simpa using congrArg List.length h4⟩
        simp only [Obj.ofVal, Quotes.astify, h1, callOf, Obj.ofFields, h5, Obj.ofVals]; rfl
    · rw [if_neg hd] at h
      exact astify_command hd h
theorem astifyL_un (H : Host σ) (B : Option (String → Option Obj)) (xs : List Val) (h : templateL B (Obj.ofVals xs) = true) :
    ∃ cs ys, Quotes.astifyL H B (Obj.ofVals xs) = pure (Obj.ofVals cs) ∧ RawL cs ys ∧ LikeL xs ys := by
  match xs with
  | [] => exact ⟨[], [], rfl, .nil, .nil⟩
  | x :: xs =>
    simp only [Obj.ofVals, templateL, Bool.and_eq_true] at h
    obtain ⟨c, y, h1, h2, h3⟩ := astify_un H B x h.1
    obtain ⟨cs, ys, h4, h5, h6⟩ := astifyL_un H B xs h.2
    refine ⟨c :: cs, y :: ys, ?_, .cons h2 h5, .cons h3 h6⟩
    simp only [Obj.ofVals, Quotes.astifyL, h1, h4]; rfl
theorem astifyF_un (H : Host σ) (B : Option (String → Option Obj)) (fs : List (F × Val)) (h : templateF B (Obj.ofFields fs) = true) :
    ∃ cs gs, Quotes.astifyF H B (Obj.ofFields fs) = pure (Obj.ofVals cs) ∧ RawF cs gs ∧ (∀ c, LikeF c fs gs) ∧
      gs.map (·.1) = fs.map (·.1) := by
  match fs with
  | [] => exact ⟨[], [], rfl, .nil, fun _ => .nil, rfl⟩
  | (f, x) :: fs =>
    simp only [Obj.ofFields, templateF, Bool.and_eq_true] at h
    obtain ⟨c, y, h1, h2, h3⟩ := astify_un H B x h.1
    obtain ⟨cs, gs, h4, h5, h6, h7⟩ := astifyF_un H B fs h.2
    refine ⟨mk .keyword [(.arg, .str f.text), (.value, c)] :: cs, (f, y) :: gs, ?_, .cons h2 h5, fun c => .field h3 (h6 c), by simp [h7]⟩
    simp only [Obj.ofFields, Quotes.astifyF, h1, h4]; rfl
end

/-! ### the quote as an invocation -/

/-- What the quote generates, also after other locations and contexts. -/
def UnQ (code x : Val) : Prop := ∃ l f c l2 k, code = callOf l f [c, constOf l2 k] [] ∧
  Refers ["mcpyrate", "quotes", "splice_ast_literals"] f ∧ Un c x

theorem UnQ.like {c x c' : Val} (h : UnQ c x) (hl : Like c c') : ∃ x', UnQ c' x' ∧ Like x x' := by
  obtain ⟨l, f, c, l2, k, rfl, hr, hu⟩ := h
  obtain ⟨l', f', as', ks', rfl, h1, h2, h3⟩ := like_call hl
  cases likeL_nil h3
  obtain ⟨c', _, rfl, h4, j1⟩ := likeL_cons h2
  obtain ⟨k', _, rfl, h5, j2⟩ := likeL_cons j1
  cases likeL_nil j2
  obtain ⟨l2', rfl⟩ := like_constOf h5
  obtain ⟨x', h6, h7⟩ := hu.like h4
  exact ⟨x', ⟨l', f', c', l2', k, rfl, refers_like hr h1, h6⟩, h7⟩

theorem UnQ.isAST {c x : Val} (h : UnQ c x) : c.isAST = true := by
  obtain ⟨l, f, c, l2, k, rfl, -⟩ := h; rfl

theorem UnQ.unastifyW {L : Lib σ} {c x : Val} (h : UnQ c x) (w : W σ) : unastifyW L c w = some (.ok x, w) := by
  obtain ⟨l, f, c, l2, k, rfl, hr, hu⟩ := h
  unfold ExpandStatic.unastifyW
  have hd : Quotes.dotted (.ofVal f) [] = some ["mcpyrate", "quotes", "splice_ast_literals"] := hr.dotted []
  have e : unastify L.H (.ofVal (callOf l f [c, constOf l2 k] [])) = unastify L.H (.ofVal c) := by
    have e : unastify L.H (.ofVal (callOf l f [c, constOf l2 k] [])) =
      (if Quotes.dotted (.ofVal f) [] = some ["mcpyrate", "quotes", "splice_ast_literals"] then unastify L.H (.ofVal c)
       else _) := rfl
    rw [e, if_pos hd]
  rw [e, hu.unastify L.H]
  change (match (Obj.ofVal x).toVal with | some v => _ | none => _) = _
  rw [toVal_of]

/-- What the quote generates. -/
def RawQ (code x : Val) : Prop := ∃ l f c l2 k, code = callOf l f [c, constOf l2 k] [] ∧
  Ref ["mcpyrate", "quotes", "splice_ast_literals"] f ∧ Raw c x

theorem RawQ.un {c x : Val} (h : RawQ c x) : UnQ c x := by
  obtain ⟨l, f, c, l2, k, rfl, hr, hu⟩ := h
  exact ⟨l, f, c, l2, k, rfl, hr.refers, hu.un⟩

theorem compiled_raw {L : Lib σ} {fn : String} {w0 : W σ} {d c : Val} (h : Compiled L fn w0 d c)
    (ht : template (bound L w0) (.ofVal d) = true) : ∃ d', RawQ c d' ∧ Like d d' := by
  obtain ⟨code, d', h1, h2, h3⟩ := astify_un L.H (bound L w0) d ht
  obtain ⟨f, h5, h6⟩ := refers_quotes "splice_ast_literals"
  refine ⟨d', ⟨{}, f, code, {}, .str fn, ?_, h6, h2⟩, h3⟩
  obtain ⟨s1, s2, hq⟩ := h
  unfold Quotes.quote at hq
  rw [show (some fun k => (isbound w0 k).map L.function) = bound L w0 from rfl, h1, M.pure_bind'] at hq
  have hq' : (some (.ok (Quotes.callNode (Quotes.quotesAttr "splice_ast_literals") [.ofVal code, Quotes.constantNode (.str fn)] []), s1) :
    Option (Except Err Obj × Quotes.St σ)) = some (.ok (Obj.ofVal c), s2) := hq
  injection hq' with hq'
  injection hq' with hq' _
  injection hq' with hq'
  rw [← h5] at hq'
  exact (ofVal_inj (v := callOf {} f [code, constOf {} (.str fn)] []) (w := c) hq').symm

theorem compiled_un {L : Lib σ} {fn : String} {w0 : W σ} {d c : Val} (h : Compiled L fn w0 d c)
    (ht : template (bound L w0) (.ofVal d) = true) : ∃ d', UnQ c d' ∧ Like d d' := by
  obtain ⟨d', h1, h2⟩ := compiled_raw h ht
  exact ⟨d', h1.un, h2⟩

/-- An invocation that has been expanded once. -/
theorem runs_once_output {E : Env υ} {t c t1 : Val} {k : String} {id : Nat} {a : MArgs} {s s' : St υ} (hw : WellFormed t)
    (hi : Invokes E s.world t k id a c) (hb : ¬ BadCall c) (ha : a.synt = .expr) (h : Runs E .once t s (.ok t1) s') :
    ∃ n ret s0, run (visit E n) ((E.macros id).fn a) (enterMacro k id a { s with recursive := false }) = some (.ok ret, s0) ∧
      ∀ v, ret = .val v → v.isAST = true → ∃ m e, Like v m ∧ Like m e ∧ t1 = done e := by
  obtain ⟨n, b, r0, s1, hv, -, -, hr, hbm⟩ := h.toVisit
  obtain ⟨v0, rfl, rfl⟩ := hr t1 rfl
  dsimp only at hbm
  subst hbm
  cases n with
  | zero => cases hv
  | succ n =>
    obtain ⟨h1, h2, h3⟩ := invokes_node hi
    have happ := (visitNode_invokes (E := E) (s := { s with recursive := false }) (vis := visit E n) hw hi).2.1 hb
    rw [visit_node (s := { s with recursive := false }) h1 h2 (bound_noBindings h3), happ] at hv
    obtain ⟨r, s2, h4, h5⟩ := bind_ok hv
    unfold expandIn at h4
    rw [if_neg (by rw [ha]; decide)] at h4
    unfold expand at h4
    obtain ⟨x, s3, h6, h7⟩ := bind_ok h4
    cases x with
    | error e => cases h7
    | ok v =>
      have h6' : expandTry E (visit E n) k a { s with recursive := false } = some (.ok v, s3) := by
        simp only [M.attempt] at h6
        cases ht : expandTry E (visit E n) k a { s with recursive := false } with
        | none => rw [ht] at h6; cases h6
        | some p => rw [ht] at h6; obtain ⟨x, y⟩ := p; cases h6; rfl
      unfold expandTry at h6'
      rw [run_get] at h6'
      have h3' : isbound ({ s with recursive := false } : St υ).world k = some id := h3
      rw [h3'] at h6'
      obtain ⟨ret, s4, h8, h9⟩ := bind_ok h6'
      have hf : Frame { s with recursive := false } s4 := applyMacro_pres frame_rel.toStep (user_pres frame_rel (visit_pres frame_rel E.all_true n) E.all_true) id k a _ h3' _ _ h8
      obtain ⟨s0, h10⟩ := applyMacro_ret h8
      refine ⟨n, ret, s0, h10, ?_⟩
      rintro v' rfl hva
      obtain ⟨cl, l, fs, rfl⟩ : ∃ cl l fs, v' = .node cl l fs := by
        cases v' with
        | node => exact ⟨_, _, _, rfl⟩
        | _ => cases hva
      cases h9
      dsimp only at h7
      unfold visitExpansion at h7
      rw [if_neg (by intro h; cases h)] at h7
      obtain ⟨e1, s5, k1, h7⟩ := bind_ok h7
      obtain ⟨q1, hs5⟩ := ofExcept_ok k1
      obtain ⟨e2, s6, k2, h7⟩ := bind_ok h7
      obtain ⟨q2, hs6⟩ := ofExcept_ok k2
      have l1 := like_fixLocations rfl (liftErr_ok q1)
      have l2 := like_fixCtx (l1.isTree rfl) (liftErr_ok q2)
      rw [run_get] at h7
      have hrec : s6.recursive = false := by rw [hs6, hs5]; exact hf.recursive
      rw [hrec] at h7
      cases h7
      refine ⟨e1, _, l1, l2, ?_⟩
      unfold afterExpand at h5
      rw [ha] at h5
      have : r.isNone = false := by cases l1; cases l2; rfl
      change some (Except.ok (if r.isNone = true then _ else r), _) = _ at h5
      rw [this] at h5
      cases h5
      rfl

theorem QuotedCode.like {L : Lib σ} {d c c' : Val} (h : QuotedCode L d c) (hl : Like c c') : QuotedCode L d c' := by
  obtain ⟨fn, w, c0, h1, h2, h3⟩ := h
  exact ⟨fn, w, c0, h1, h2, h3.step hl⟩

theorem QuotedCode.un {L : Lib σ} {d c : Val} (h : QuotedCode L d c) : ∃ d', UnQ c d' ∧ Likes d d' := by
  obtain ⟨fn, w, c0, h1, h2, h3⟩ := h
  obtain ⟨d1, h4, l1⟩ := compiled_un h1 h2
  clear h1
  induction h3 with
  | refl => exact ⟨d1, h4, .step .refl l1⟩
  | step _ hl ih =>
    obtain ⟨d2, k1, k2⟩ := ih
    obtain ⟨d3, k3, k4⟩ := k1.like hl
    exact ⟨d3, k3, .step k2 k4⟩

theorem QuotedCode.isAST {L : Lib σ} {d c : Val} (h : QuotedCode L d c) : c.isAST = true := by
  obtain ⟨d', h, -⟩ := h.un
  exact h.isAST

/-- `expands[t]`, where `t` is expanded once to quoted code. -/
theorem run_expandS_un (L : Lib σ) (E : Env (User σ)) (filename : String) (layers : Layers) (a : MArgs)
    (ha : a.synt = .expr) (s s1 : Expander.St (User σ)) (x c : Val) (hv : Runs E .once a.tree s (.ok (done c)) s1)
    (hc : UnQ c x) :
    ∃ N, ∀ n, N ≤ n → run (visit E n) (expandS L filename layers a) s = run (visit E n) (requote L filename layers a x) s1 := by
  obtain ⟨N, hv⟩ := hv
  refine ⟨N, fun n hn => ?_⟩
  have hv := visitAs_mono E hn .once a.tree s _ hv
  unfold expandS
  rw [if_pos (.inl ha), if_neg (by rw [ha]; rintro ⟨h, -⟩; cases h), if_neg (by rw [ha]; rintro ⟨h, -⟩; cases h)]
  change (M.attempt (visitAs E n .once a.tree) >>= _) s = _
  rw [run_bind (a := Except.ok (done c)) (s' := s1) (by simp only [M.attempt]; rw [hv])]
  change run (visit E n) (proceed (requote L filename layers a) (unastifyW L c s1.world)) s1 = _
  rw [hc.unastifyW]
  rfl

/-- `expands[t]`, where the expansion of `t` fails. -/
theorem does_expandS_error {L : Lib σ} {E : Env (User σ)} {filename : String} {layers : Layers} {a : MArgs}
    (ha : a.synt = .expr) {s s' : Expander.St (User σ)} {e : Exc} (h : Runs E .once a.tree s (.error e) s') :
    Does E (expandS L filename layers a) s (.error e) s' := by
  obtain ⟨n, hv⟩ := h
  refine ⟨n, ?_⟩
  unfold expandS
  rw [if_pos (.inl ha), if_neg (by rw [ha]; rintro ⟨h, -⟩; cases h), if_neg (by rw [ha]; rintro ⟨h, -⟩; cases h)]
  change (M.attempt (visitAs E n .once a.tree) >>= _) s = _
  rw [run_bind (a := Except.error e) (s' := s') (by simp only [M.attempt]; rw [hv])]
  rfl

end Mcpyrate.ExpandStatic
