import Verif.Model.Unparse
import Verif.Spec.PyParser
/-
What the unparser writes for each kind of expression, if the recursion limit is high enough.
-/
namespace Mcpyrate.Unparse
open Py

/-- For all large numbers. -/
def Large (p : Nat → Prop) : Prop := ∃ N, ∀ n, N ≤ n → p n

theorem Large.and {p q : Nat → Prop} (h1 : Large p) (h2 : Large q) : Large fun n => p n ∧ q n := by
  obtain ⟨N, h1⟩ := h1
  obtain ⟨M, h2⟩ := h2
  exact ⟨N + M, fun n hn => ⟨h1 n (by omega), h2 n (by omega)⟩⟩

theorem Large.succ {p q : Nat → Prop} (h : Large p) (hs : ∀ n, p n → q (n + 1)) : Large q := by
  obtain ⟨N, h⟩ := h
  refine ⟨N + 1, fun n hn => ?_⟩
  obtain ⟨m, rfl⟩ : ∃ m, n = m + 1 := ⟨n - 1, by omega⟩
  exact hs m (h m (by omega))

theorem Large.mono {p q : Nat → Prop} (h : Large p) (hs : ∀ n, p n → q n) : Large q := by
  obtain ⟨N, h⟩ := h
  exact ⟨N, fun n hn => hs n (h n hn)⟩

theorem Large.all {p : Nat → Prop} (h : ∀ n, p n) : Large p := ⟨0, fun n _ => h n⟩

/-- The text for a tree. -/
def Prints (H : Host) (v : Val) (s : Str) : Prop := Large fun n => ∀ c, dispatch H n c v = .ok s

/-- The texts for some trees. -/
def PrintsL (H : Host) (vs : List Val) (ss : List Str) : Prop := Large fun n => ∀ c, texts (dispatch H n c) vs = .ok ss

variable {H : Host}

theorem ok_bind {α β : Type} {x : α} {f : α → Except Err β} : (Except.ok x >>= f) = f x := rfl
theorem pure_ok {α : Type} {x : α} : (pure x : Except Err α) = .ok x := rfl

theorem PrintsL.nil : PrintsL H [] [] := Large.all fun _ _ => rfl

theorem PrintsL.cons {v vs s ss} (h : Prints H v s) (hs : PrintsL H vs ss) : PrintsL H (v :: vs) (s :: ss) :=
  (h.and hs).mono fun n ⟨h1, h2⟩ c => by simp [texts, h1 c, h2 c, ok_bind, pure_ok]

theorem texts_ok_append {α} {f : α → R} {xs ys : List α} {ss tt} (h1 : texts f xs = .ok ss) (h2 : texts f ys = .ok tt) :
    texts f (xs ++ ys) = .ok (ss ++ tt) := by
  induction xs generalizing ss with
  | nil => simp only [texts, Except.ok.injEq] at h1; subst h1; exact h2
  | cons x xs ih =>
    simp only [texts, bind, Except.bind, pure, Except.pure] at h1
    split at h1
    · exact nomatch h1
    · rename_i y hy
      split at h1
      · exact nomatch h1
      · rename_i zs hzs
        cases h1
        simp only [List.cons_append, texts, bind, Except.bind, pure, Except.pure, hy, ih hzs]

theorem lookup_here {f : F} {v : Val} {fs : Fields} : List.lookup f ((f, v) :: fs) = some v := by simp [List.lookup]

theorem lookup_there {f g : F} {v : Val} {fs : Fields} (h : f ≠ g) : List.lookup f ((g, v) :: fs) = List.lookup f fs := by
  rw [List.lookup, beq_false_of_ne h]

theorem attr_here {k : K} {f : F} {v : Val} {fs : Fields} : attr k ((f, v) :: fs) f = .ok v := by
  unfold attr; rw [lookup_here]

theorem attr_there {k : K} {f g : F} {v : Val} {fs : Fields} (h : f ≠ g) : attr k ((g, v) :: fs) f = attr k fs f := by
  unfold attr; rw [lookup_there h]


/-- Compute with the texts of the parts. -/
macro "unparsing" "[" ls:Lean.Parser.Tactic.simpLemma,* "]" : tactic =>
  `(tactic| simp [attr_here, attr_there, lookup_here, lookup_there, attrL, attrV, elems, operator, ok_bind, pure_ok, write,
      $ls,*])

theorem Prints.name {s : String} {k : K} : Prints H (Py.name s k) s.toList :=
  (Large.all fun _ => trivial).succ (p := fun _ => True) fun n _ c => by
    show (do write (← attr .Name _ .id)) = _
    unparsing []

theorem Prints.constant {k : Const} {u : Val} {s} (h : constantText H [(.value, .const k), (.kind, u)] = .ok s) :
    Prints H (mk .Constant [(.value, .const k), (.kind, u)]) s :=
  (Large.all fun _ => trivial).succ (p := fun _ => True) fun _ _ _ => h

theorem Prints.starred {v s} (h : Prints H v s) : Prints H (PyText.starred v) ('*' :: s) :=
  h.succ fun n h c => by
    show Unparse.starred (dispatch H n) c _ = _
    unparsing [Unparse.starred, h c]

theorem Prints.binOp {a b x y} {k : K} {s : String} (ha : Prints H a x) (hb : Prints H b y) (hk : binop k = some s) :
    Prints H (PyText.binOp a k b) (lit "(" ++ x ++ lit " " ++ s.toList ++ lit " " ++ y ++ lit ")") :=
  (ha.and hb).succ fun n ⟨h1, h2⟩ c => by
    show Unparse.binOp (dispatch H n) c _ = _
    unparsing [Unparse.binOp, h1 c, h2 c, hk]

theorem Prints.unaryOp {a x} {k : K} {s : String} (ha : Prints H a x) (hk : unop k = some s) (hn : k ≠ .Not) :
    Prints H (PyText.unaryOp k a) (lit "(" ++ s.toList ++ x ++ lit ")") :=
  ha.succ fun n h c => by
    show Unparse.unaryOp (dispatch H n) c _ = _
    unparsing [Unparse.unaryOp, h c, hk, Val.isK, Ne.symm hn]

theorem Prints.not {a x} (ha : Prints H a x) : Prints H (PyText.unaryOp .Not a) (lit "(" ++ lit "not" ++ lit " " ++ x ++ lit ")") :=
  ha.succ fun n h c => by
    show Unparse.unaryOp (dispatch H n) c _ = _
    unparsing [Unparse.unaryOp, h c, unop, Val.isK, lit]

theorem Prints.ifExp {a b d x y z} (ha : Prints H a x) (hb : Prints H b y) (hd : Prints H d z) :
    Prints H (PyText.ifExp a b d) (lit "(" ++ x ++ lit " if " ++ y ++ lit " else " ++ z ++ lit ")") :=
  ((ha.and hb).and hd).succ fun n ⟨⟨h1, h2⟩, h3⟩ c => by
    show Unparse.ifExp (dispatch H n) c _ = _
    unparsing [Unparse.ifExp, h1 c, h2 c, h3 c]

theorem Prints.attrOf {a x} {s : String} (ha : Prints H a x) :
    Prints H (PyText.attrOf a s) (x ++ (if isIntConstant a then lit " " else []) ++ lit "." ++ s.toList) :=
  ha.succ fun n h c => by
    show Unparse.attributeText (dispatch H n) c _ = _
    unparsing [Unparse.attributeText, h c]

theorem Prints.await {a x} (h : Prints H a x) (ha : truthy a = true) :
    Prints H (mk .Await [(.value, a)]) (lit "(" ++ lit "await" ++ ' ' :: x ++ lit ")") :=
  h.succ fun n h c => by
    show wordValue (dispatch H n) c _ _ _ = _
    unparsing [wordValue, h c, opt, ha]

theorem Prints.yield {a x} (h : Prints H a x) (ha : truthy a = true) :
    Prints H (mk .Yield [(.value, a)]) (lit "(" ++ lit "yield" ++ ' ' :: x ++ lit ")") :=
  h.succ fun n h c => by
    show wordValue (dispatch H n) c _ _ _ = _
    unparsing [wordValue, h c, opt, ha]

theorem Prints.yieldNone : Prints H (mk .Yield [(.value, .none)]) (lit "(" ++ lit "yield" ++ lit ")") :=
  (Large.all fun _ => trivial).succ (p := fun _ => True) fun n _ c => by
    show wordValue (dispatch H n) c _ _ _ = _
    unparsing [wordValue, opt, truthy, FutureImports.truthy]

theorem Prints.yieldFrom {a x} (h : Prints H a x) (ha : truthy a = true) :
    Prints H (mk .YieldFrom [(.value, a)]) (lit "(" ++ lit "yield from" ++ ' ' :: x ++ lit ")") :=
  h.succ fun n h c => by
    show wordValue (dispatch H n) c _ _ _ = _
    unparsing [wordValue, h c, opt, ha]

theorem Prints.namedExpr {a y} {x : String} (h : Prints H a y) :
    Prints H (PyText.namedExpr x a) (lit "(" ++ x.toList ++ lit " := " ++ y ++ lit ")") :=
  (h.and (Prints.name (H := H) (s := x) (k := .Store))).succ fun n ⟨h, h1⟩ c => by
    show Unparse.namedExpr (dispatch H n) c _ = _
    unparsing [Unparse.namedExpr, h c, h1 c]

theorem Prints.list {xs ss} (h : PrintsL H xs ss) :
    Prints H (PyText.list xs) (lit "[" ++ interleave (lit ", ") ss ++ lit "]") :=
  h.succ fun n h c => by
    show (do display (dispatch H n) c "[" "]" (← attrL .List _ .elts)) = _
    unparsing [display, h c]

theorem Prints.set {x xs ss} (h : PrintsL H (x :: xs) ss) :
    Prints H (mk .Set [(.elts, .list (x :: xs))]) (lit "{" ++ interleave (lit ", ") ss ++ lit "}") :=
  h.succ fun n h c => by
    show (do
      let es ← attrL .Set _ .elts
      if es.isEmpty then .error .assertionError else display (dispatch H n) c "{" "}" es) = _
    unparsing [display, h c]

/-- The elements of a tuple. -/
def tupleText : List Str → Str
  | [s] => s ++ lit ","
  | ss => interleave (lit ", ") ss

theorem tupleItems_ok {rec : Rec} {c} {xs ss} {ctx : Val} (h : texts (rec c) xs = .ok ss) :
    tupleItems rec c [(.elts, .list xs), (.ctx, ctx)] = .ok (tupleText ss) := by
  unfold tupleItems
  simp only [attrL, attr_here, elems, ok_bind]
  match xs with
  | [] => simp only [texts, Except.ok.injEq] at h; subst h; rfl
  | [x] =>
    simp only [texts, bind, Except.bind, pure, Except.pure] at h
    split at h
    · exact nomatch h
    · rename_i s hs
      cases h
      simp [hs, ok_bind, pure_ok, tupleText]
  | x :: y :: r =>
    have h0 := h
    simp only [texts, bind, Except.bind, pure, Except.pure] at h
    split at h
    · exact nomatch h
    · split at h
      · exact nomatch h
      · rename_i ss' hss'
        split at hss'
        · exact nomatch hss'
        · split at hss'
          · exact nomatch hss'
          · cases hss'; cases h
            dsimp only
            rw [h0]; rfl

theorem Prints.tuple {xs ss} (h : PrintsL H xs ss) : Prints H (PyText.tuple xs) (lit "(" ++ tupleText ss ++ lit ")") :=
  h.succ fun n h c => by
    show (do return lit "(" ++ (← tupleItems (dispatch H n) c _) ++ lit ")") = _
    rw [tupleItems_ok (h c)]; rfl

theorem Prints.subscript {a s x y} (ha : Prints H a x) (hs : Prints H s y) (ht : s.isK .Tuple = false) :
    Prints H (PyText.subscript a s) (x ++ lit "[" ++ y ++ lit "]") :=
  (ha.and hs).succ fun n ⟨h1, h2⟩ c => by
    show Unparse.subscript (dispatch H n) c _ = _
    unfold Unparse.subscript
    unparsing [h1 c]
    split
    · simp [Val.isK] at ht
    · unparsing [h2 c]

theorem Prints.subscriptTuple {a xs x ss} (ha : Prints H a x) (hs : PrintsL H xs ss) :
    Prints H (PyText.subscript a (PyText.tuple xs)) (x ++ lit "[" ++ tupleText ss ++ lit "]") :=
  (ha.and hs).succ fun n ⟨h1, h2⟩ c => by
    show Unparse.subscript (dispatch H n) c _ = _
    unfold Unparse.subscript PyText.tuple
    unparsing [h1 c, tupleItems_ok (h2 c)]

/-- An optional part: nothing for `None`. -/
def PrintsO (H : Host) (v : Val) (s : Option Str) : Prop :=
  match s with
  | none => v = .none
  | some s => Prints H v s ∧ truthy v = true

theorem PrintsO.opt {v s} (h : PrintsO H v s) : Large fun n => ∀ c, opt v (dispatch H n c) = .ok (s.getD []) := by
  cases s with
  | none => cases h; exact Large.all fun _ _ => rfl
  | some s => exact h.1.mono fun n hn c => by unfold Unparse.opt; rw [if_pos h.2]; exact hn c

theorem PrintsO.optWith {v s} (h : PrintsO H v s) (f : Str → Str) :
    Large fun n => ∀ c, Unparse.opt v (fun v => do return f (← dispatch H n c v)) = .ok ((s.map f).getD []) := by
  cases s with
  | none => cases h; exact Large.all fun _ _ => rfl
  | some s =>
    exact h.1.mono fun n hn c => by unfold Unparse.opt; rw [if_pos h.2]; simp [hn c, ok_bind, pure_ok]

theorem Prints.slice {a b d x y z} (ha : PrintsO H a x) (hb : PrintsO H b y) (hd : PrintsO H d z) :
    Prints H (PyText.sliceOf a b d) (x.getD [] ++ lit ":" ++ y.getD [] ++ (z.map (':' :: ·)).getD []) :=
  ((ha.opt.and hb.opt).and (hd.optWith (':' :: ·))).succ fun n ⟨⟨h1, h2⟩, h3⟩ c => by
    show Unparse.slice (dispatch H n) c _ = _
    unfold Unparse.slice
    unparsing [h1 c, h2 c]
    have h3 := h3 c
    simp only [pure_ok] at h3
    rw [h3]; simp [ok_bind]

theorem Prints.keyword {v y} {x : String} (h : Prints H v y) :
    Prints H (PyText.keywordOf (.str x) v) (x.toList ++ lit "=" ++ y) :=
  h.succ fun n h c => by
    show Unparse.keyword (dispatch H n) c _ = _
    unparsing [Unparse.keyword, h c, Val.isNone]

theorem Prints.doubleStar {v y} (h : Prints H v y) : Prints H (PyText.keywordOf .none v) (lit "**" ++ y) :=
  h.succ fun n h c => by
    show Unparse.keyword (dispatch H n) c _ = _
    unparsing [Unparse.keyword, h c, Val.isNone]

theorem Prints.call {f as ks x ss tt} (hf : Prints H f x) (ha : PrintsL H as ss) (hk : PrintsL H ks tt) :
    Prints H (mk .Call [(.func, f), (.args, .list as), (.keywords, .list ks)])
      (x ++ lit "(" ++ interleave (lit ", ") (ss ++ tt) ++ lit ")") :=
  ((hf.and ha).and hk).succ fun n ⟨⟨h1, h2⟩, h3⟩ c => by
    show Unparse.call (dispatch H n) c _ = _
    unparsing [Unparse.call, callArgs, h1 c, h2 c, h3 c]

theorem Prints.boolOp {k : K} {o : String} {vs ss} (hk : boolop k = some o) (h : PrintsL H vs ss) :
    Prints H (mk .BoolOp [(.op, mk k []), (.values, .list vs)])
      (lit "(" ++ interleave (lit " " ++ o.toList ++ lit " ") ss ++ lit ")") :=
  h.succ fun n h c => by
    show Unparse.boolOp (dispatch H n) c _ = _
    unparsing [Unparse.boolOp, h c, hk]

/-- The texts of comparisons. -/
inductive PrintsCmp (H : Host) : List Val → List Str → Prop
  | nil : PrintsCmp H [] []
  | cons {k : K} {o : String} {b y ps ss} (hk : cmpop k = some o) (hb : Prints H b y) (h : PrintsCmp H ps ss) :
      PrintsCmp H (.list [mk k [], b] :: ps) ((lit " " ++ o.toList ++ lit " " ++ y) :: ss)

theorem PrintsCmp.texts {ps ss} (h : PrintsCmp H ps ss) :
    Large fun n => ∀ c, Unparse.texts (comparison (dispatch H n) c) ((ps.map PyText.fst).zip (ps.map PyText.snd)) = .ok ss := by
  induction h with
  | nil => exact Large.all fun _ _ => rfl
  | cons hk hb _ ih =>
    refine (hb.and ih).mono fun n ⟨h1, h2⟩ c => ?_
    have h2 := h2 c
    simp [List.zip_cons_cons, Unparse.texts, PyText.fst, PyText.snd, comparison, ok_bind, pure_ok, operator, hk, h1 c, h2]

theorem Prints.compare {a x p ps ss} (ha : Prints H a x) (h : PrintsCmp H (p :: ps) ss) :
    Prints H (PyText.compare a (p :: ps)) (lit "(" ++ x ++ ss.flatten ++ lit ")") :=
  (ha.and h.texts).succ fun n ⟨h1, h2⟩ c => by
    show Unparse.compare (dispatch H n) c _ = _
    have h2 := h2 c
    simp only [List.map_cons, List.zip_cons_cons] at h2
    unparsing [Unparse.compare, concat, h1 c, h2]

/-- The texts of the pairs of a dict display. -/
inductive PrintsPairs (H : Host) : List Val → List Str → Prop
  | nil : PrintsPairs H [] []
  | cons {a b x y ps ss} (ha : Prints H a x) (hb : Prints H b y) (h : PrintsPairs H ps ss) :
      PrintsPairs H (.list [a, b] :: ps) ((x ++ lit ": " ++ y) :: ss)

theorem PrintsPairs.texts {ps ss} (h : PrintsPairs H ps ss) :
    Large fun n => ∀ c, Unparse.texts (pair (dispatch H n) c) ((ps.map PyText.fst).zip (ps.map PyText.snd)) = .ok ss := by
  induction h with
  | nil => exact Large.all fun _ _ => rfl
  | cons ha hb _ ih =>
    refine ((ha.and hb).and ih).mono fun n ⟨⟨h0, h1⟩, h2⟩ c => ?_
    have h2 := h2 c
    simp [List.zip_cons_cons, Unparse.texts, PyText.fst, PyText.snd, pair, ok_bind, pure_ok, h0 c, h1 c, h2]

theorem Prints.dict {ps ss} (h : PrintsPairs H ps ss) : Prints H (PyText.dict ps) (lit "{" ++ interleave (lit ", ") ss ++ lit "}") :=
  h.texts.succ fun n h c => by
    show Unparse.dict (dispatch H n) c _ = _
    unparsing [Unparse.dict, h c]

theorem Prints.comp {k : K} {o cl : String} {a x gs ss}
    (hm : ∀ rec n c t fs, method H rec n c t fs k = comp rec c k o cl fs) (ha : Prints H a x) (h : PrintsL H gs ss) :
    Prints H (PyText.generator k a (.list gs)) (lit o ++ x ++ ss.flatten ++ lit cl) :=
  (ha.and h).succ fun n ⟨h1, h2⟩ c => by
    show method H (dispatch H n) n c _ _ k = _
    rw [hm]
    unparsing [Unparse.comp, concat, h1 c, h2 c]

theorem Prints.dictComp {a b x y gs ss} (ha : Prints H a x) (hb : Prints H b y) (h : PrintsL H gs ss) :
    Prints H (PyText.dictComp a b (.list gs)) (lit "{" ++ x ++ lit ": " ++ y ++ ss.flatten ++ lit "}") :=
  ((ha.and hb).and h).succ fun n ⟨⟨h1, h3⟩, h2⟩ c => by
    show Unparse.dictComp (dispatch H n) c _ = _
    unparsing [Unparse.dictComp, concat, h1 c, h2 c, h3 c]

theorem ifs_texts {f : Val → R} {xs ss} (h : texts f xs = .ok ss) :
    texts (fun x => do return lit " if " ++ (← f x)) xs = .ok (ss.map (lit " if " ++ ·)) := by
  induction xs generalizing ss with
  | nil => simp only [texts, Except.ok.injEq] at h; subst h; rfl
  | cons x xs ih =>
    simp only [texts, bind, Except.bind, pure, Except.pure] at h ih ⊢
    split at h
    · exact nomatch h
    · rename_i y hy
      split at h
      · exact nomatch h
      · rename_i zs hzs
        cases h
        rw [ih hzs]; rfl

theorem PrintsL.ifs {xs ss} (h : PrintsL H xs ss) :
    Large fun n => ∀ c, texts (fun x => do return lit " if " ++ (← dispatch H n c x)) xs = .ok (ss.map (lit " if " ++ ·)) := by
  refine h.mono fun n h c => ifs_texts (h c)

theorem Prints.comprehension {t i x y ls ss} {k : Int} (ht : Prints H t x) (hi : Prints H i y) (hl : PrintsL H ls ss)
    (hk : k = 0 ∨ k = 1) :
    Prints H (mk .comprehension [(.target, t), (.iter, i), (.ifs, .list ls), (.is_async, .int k)])
      ((if k = 1 then lit " async" else []) ++ lit " for " ++ x ++ lit " in " ++ y ++ (ss.map (lit " if " ++ ·)).flatten) :=
  ((ht.and hi).and hl.ifs).succ fun n ⟨⟨h1, h2⟩, h3⟩ c => by
    show Unparse.comprehension (dispatch H n) c _ = _
    have h3 := h3 c
    simp only [pure_ok] at h3
    unparsing [Unparse.comprehension, concat, h1 c, h2 c, h3]
    rcases hk with rfl | rfl <;> simp [truthy, FutureImports.truthy]

/-! ### Parameters -/

/-- An annotation, as the unparser writes it. -/
def annText (s : Option Str) : Str := (s.map (lit ": " ++ ·)).getD []

theorem PrintsO.annotation {v s} (h : PrintsO H v s) : Large fun n => ∀ c, annotation (dispatch H n) c v = .ok (annText s) :=
  (h.optWith (lit ": " ++ ·)).mono fun _ h c => h c

theorem PrintsO.argText {x : String} {a : Val} {s} (h : PrintsO H a s) : Large fun n => ∀ c,
    argText (dispatch H n) c [(.arg, .str x), (.annotation, a), (.type_comment, .none)] = .ok (x.toList ++ annText s) :=
  h.annotation.mono fun n h c => by unparsing [Unparse.argText, h c]

theorem Prints.arg {x : String} {a : Val} {s} (h : PrintsO H a s) : Prints H (PyText.argOf x a) (x.toList ++ annText s) :=
  h.argText.succ fun _ h c => h c

/-- The texts of ordinary parameters. -/
inductive PrintsPlain (H : Host) : List Val → List Str → Prop
  | nil : PrintsPlain H [] []
  | cons {x : String} {a d s t ps ss} (ha : PrintsO H a s) (hd : PrintsO H d t) (h : PrintsPlain H ps ss) :
      PrintsPlain H (.list [PyText.argOf x a, d] :: ps) ((x.toList ++ annText s ++ (t.map ('=' :: ·)).getD []) :: ss)

theorem PrintsPlain.texts {ps ss} (h : PrintsPlain H ps ss) :
    Large fun n => ∀ c, Unparse.texts (argDefault (dispatch H n) c) ((ps.map PyText.fst).zip (ps.map PyText.snd)) = .ok ss := by
  induction h with
  | nil => exact Large.all fun _ _ => rfl
  | @cons x a d s t ps ss ha hd _ ih =>
    refine (((Prints.arg (x := x) ha).and (hd.optWith ('=' :: ·))).and ih).mono fun n ⟨⟨h0, h1⟩, h2⟩ c => ?_
    have h1 := h1 c
    have h2 := h2 c
    simp only [pure_ok] at h1
    simp [List.zip_cons_cons, Unparse.texts, PyText.fst, PyText.snd, argDefault, ok_bind, pure_ok, h0 c, h1, h2]

theorem PrintsPlain.length {ps ss} (h : PrintsPlain H ps ss) : ss.length = ps.length := by
  induction h with
  | nil => rfl
  | cons _ _ _ ih => simp [ih]

/-- `*args` or `**kwargs`. -/
inductive PrintsStar (H : Host) : Val → Option Str → Prop
  | none : PrintsStar H .none Option.none
  | some {x : String} {a s} (h : PrintsO H a s) : PrintsStar H (PyText.argOf x a) (Option.some (x.toList ++ annText s))

theorem PrintsStar.text {v s} (h : PrintsStar H v s) (w : String) : Large fun n => ∀ c,
    (if truthy v = true then do pure [lit w ++ (← starArg (dispatch H n) c v)] else pure [] : Except Err (List Str)) =
      .ok ((s.map (lit w ++ ·)).toList) := by
  cases h with
  | none => exact Large.all fun _ _ => rfl
  | @some x a s h =>
    refine (h.argText (x := x)).mono fun n h c => ?_
    show (do pure [lit w ++ (← argText (dispatch H n) c _)]) = _
    rw [h c]; rfl

/-- The default values, with `None` in front where there are none. -/
theorem padded {ds es : List Val} (h : PyText.defaultsOf ds = some es) :
    List.replicate (ds.length - es.length) Val.none ++ es = ds := by
  unfold PyText.defaultsOf at h
  dsimp only at h
  split at h
  · exact nomatch h
  · cases h
    rename_i h0
    clear h0
    induction ds with
    | nil => rfl
    | cons d ds ih =>
      rw [List.dropWhile]
      split
      · rename_i hd
        have hd' : d = .none := by
          unfold Val.isNone at hd
          split at hd
          · rfl
          · exact nomatch hd
        have hl : (List.dropWhile Val.isNone ds).length ≤ ds.length := (List.dropWhile_sublist _).length_le
        rw [List.length_cons, Nat.succ_sub hl, List.replicate_succ, List.cons_append, ih, hd']
      · simp

/-- `*args`, or a `*` before keyword-only parameters. -/
def starTexts (star : Option Str) (zs : List Str) : List Str :=
  match star with
  | some s => [lit "*" ++ s]
  | none => if zs.isEmpty then [] else [lit "*"]

/-- The parameters: the texts of positional-only, ordinary and keyword-only ones, `*args` and `**kwargs`. -/
def argumentsText (xs ys : List Str) (star : Option Str) (zs : List Str) (double : Option Str) : Str :=
  interleave (lit ", ") (xs ++ (if xs.isEmpty then [] else [lit "/"]) ++ ys ++
    starTexts star zs ++
    zs ++ (double.map (lit "**" ++ ·)).toList)

theorem Prints.arguments {ps as ks ds : List Val} {vararg kwarg : Val} {xs ys zs star double}
    (hp : PrintsPlain H ps xs) (ha : PrintsPlain H as ys) (hk : PrintsPlain H ks zs) (hv : PrintsStar H vararg star)
    (hw : PrintsStar H kwarg double) (hd : PyText.defaultsOf ((ps ++ as).map PyText.snd) = some ds) :
    Prints H (mk .arguments [(.posonlyargs, .list (ps.map PyText.fst)), (.args, .list (as.map PyText.fst)), (.vararg, vararg),
      (.kwonlyargs, .list (ks.map PyText.fst)), (.kw_defaults, .list (ks.map PyText.snd)), (.kwarg, kwarg),
      (.defaults, .list ds)]) (argumentsText xs ys star zs double) := by
  refine ((hp.texts.and ha.texts).and ((hk.texts.and (hv.text "*")).and (hw.text "**"))).succ ?_
  intro n ⟨⟨h1, h2⟩, ⟨h3, h4⟩, h5⟩ c
  show Unparse.arguments (dispatch H n) c _ = _
  have hpad := padded hd
  rw [List.length_map, List.length_append] at hpad
  have h1 := h1 c
  have h2 := h2 c
  have h3 := h3 c
  have h4 := h4 c
  have h5 := h5 c
  have e : (as.map PyText.fst).length + (ps.map PyText.fst).length - ds.length = ps.length + as.length - ds.length := by
    simp; omega
  have e1 : (ps.map PyText.snd ++ as.map PyText.snd).take ps.length = ps.map PyText.snd := by simp
  have e2 : (ps.map PyText.snd ++ as.map PyText.snd).drop ps.length = as.map PyText.snd := by simp
  have hs : starItem (dispatch H n) c vararg (.list (ks.map PyText.fst)) = .ok (starTexts star zs) := by
    have hz := hk.length
    cases hv with
    | none =>
      cases ks <;> cases zs
      · rfl
      · exact nomatch hz
      · exact nomatch hz
      · rfl
    | some h => exact h4
  have hko : ∀ fs : Fields, attrL .arguments fs .kw_defaults = .ok (ks.map PyText.snd) →
      kwonlyItems (dispatch H n) c (.list (ks.map PyText.fst)) fs = .ok zs := by
    intro fs hfs
    have hz := hk.length
    unfold kwonlyItems
    rw [hfs]
    cases ks with
    | nil =>
      cases zs with
      | nil => rfl
      | cons => exact nomatch hz
    | cons => exact h3
  unfold Unparse.arguments
  simp only [attrL, attr_here, attr_there, lookup_here, ne_eq, reduceCtorEq, not_false_eq_true, ok_bind]
  simp only [elems, ok_bind]
  rw [e, hpad, List.map_append, List.length_map, e1, e2, h1, h2]
  simp only [ok_bind]
  rw [hs]
  simp only [ok_bind]
  rw [hko]
  · rw [show doubleItem (dispatch H n) c kwarg = _ from h5]
    rfl
  · simp [attrL, attr_here, attr_there, elems, ok_bind]

theorem Prints.lambda {ps as ks ds : List Val} {vararg kwarg b : Val} {xs ys zs star double y}
    (hp : PrintsPlain H ps xs) (ha : PrintsPlain H as ys) (hk : PrintsPlain H ks zs) (hv : PrintsStar H vararg star)
    (hw : PrintsStar H kwarg double) (hd : PyText.defaultsOf ((ps ++ as).map PyText.snd) = some ds) (hb : Prints H b y) :
    Prints H (PyText.lambda (mk .arguments [(.posonlyargs, .list (ps.map PyText.fst)), (.args, .list (as.map PyText.fst)),
      (.vararg, vararg), (.kwonlyargs, .list (ks.map PyText.fst)), (.kw_defaults, .list (ks.map PyText.snd)), (.kwarg, kwarg),
      (.defaults, .list ds)]) b)
      (lit "(lambda" ++ (if ps.isEmpty && as.isEmpty && star.isNone && ks.isEmpty && double.isNone then [] else lit " ") ++
        argumentsText xs ys star zs double ++ lit ": " ++ y ++ lit ")") :=
  ((Prints.arguments hp ha hk hv hw hd).and hb).succ fun n ⟨h1, h2⟩ c => by
    show Unparse.lambda (dispatch H n) c _ = _
    unparsing [Unparse.lambda, h1 c, h2 c, takesArguments, Val.get?]
    cases ps <;> cases as <;> cases ks <;> cases hv <;> cases hw <;>
      simp [truthy, FutureImports.truthy, PyText.argOf, ok_bind]

end Mcpyrate.Unparse
