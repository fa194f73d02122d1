import Verif.Spec.Plain
/-
C47: what the reference parser returns for expressions.
-/
namespace Mcpyrate.PyText
open Py

theorem PlainL.mem : ∀ {xs : List Val}, PlainL xs → ∀ x ∈ xs, Plain x
  | [], _, x, hx => by cases hx
  | y :: ys, h, x, hx => by
    rcases List.mem_cons.1 hx with rfl | hx
    · exact h.1
    · exact PlainL.mem h.2 x hx

theorem PlainF.mem : ∀ {fs : Fields}, PlainF fs → ∀ {f : F} {v : Val}, (f, v) ∈ fs → f ≠ .ctx → Plain v
  | [], _, f, v, hx, _ => by cases hx
  | (g, w) :: fs, h, f, v, hx, hf => by
    rcases List.mem_cons.1 hx with e | hx
    · cases e
      rcases h.1 with h | h
      · exact absurd h hf
      · exact h
    · exact PlainF.mem h.2 hx hf

theorem Plain.get {k : K} {fs : Fields} (h : Plain (mk k fs)) {f : F} {v : Val} (hv : (f, v) ∈ fs) (hf : f ≠ .ctx) : Plain v :=
  h.2.mem hv hf

theorem Plain.getL {k : K} {fs : Fields} (h : Plain (mk k fs)) {f : F} {xs : List Val} (hv : (f, Val.list xs) ∈ fs) (hf : f ≠ .ctx) :
    ∀ x ∈ xs, Plain x := PlainL.mem (h.2.mem hv hf)

theorem Plain.odd {k : K} {fs : Fields} (h : Plain (mk k fs)) : ¬ Odd k fs := h.1

theorem plainL_of : ∀ {xs : List Val}, (∀ x ∈ xs, Plain x) → PlainL xs
  | [], _ => trivial
  | y :: ys, h => ⟨h y (by simp), plainL_of fun x hx => h x (by simp [hx])⟩

/-- `Plain` of a part. -/
macro "part% " h:term ", " f:term : term => `(Plain.get $h (f := $f) (by simp) (by decide))
macro "parts% " h:term ", " f:term : term => `(Plain.getL $h (f := $f) (by simp) (by decide))

variable (P : Reading)

def Toks (ts : List Tok) : Prop := ∀ t ∈ ts, TokOK P t

variable {P}

theorem Toks.tail {t : Tok} {ts : List Tok} (h : Toks P (t :: ts)) : Toks P ts := fun x hx => h x (by simp [hx])
theorem Toks.head {t : Tok} {ts : List Tok} (h : Toks P (t :: ts)) : TokOK P t := h t (by simp)

macro "toks!" : tactic => `(tactic| first
  | assumption
  | exact Toks.tail (by assumption)
  | exact Toks.tail (Toks.tail (by assumption))
  | exact Toks.tail (Toks.tail (Toks.tail (by assumption))))

variable (P)

/-- All that is returned satisfies `Q`. -/
def Yields (x : Res) (Q : Val → Prop) : Prop := ∀ v r, x = some (v, r) → Q v ∧ Toks P r

variable {P}

theorem Yields.seq {x : Res} {Q R : Val → Prop} {f : Val → List Tok → Res} (h : Yields P x Q)
    (hf : ∀ a r, Q a → Toks P r → Yields P (f a r) R) : Yields P (PyText.seq x f) R := by
  intro v r he
  cases x with
  | none => cases he
  | some y =>
    obtain ⟨a, r'⟩ := y
    obtain ⟨h1, h2⟩ := h a r' rfl
    exact hf a r' h1 h2 v r he

theorem Yields.ret {Q : Val → Prop} {v : Val} {r : List Tok} (hq : Q v) (hr : Toks P r) : Yields P (some (v, r)) Q := by
  intro v' r' h
  cases h
  exact ⟨hq, hr⟩

theorem Yields.none {Q : Val → Prop} : Yields P none Q := by
  intro v r h
  cases h

theorem Yields.mono {Q R : Val → Prop} {x : Res} (h : Yields P x Q) (hm : ∀ v, Q v → R v) : Yields P x R :=
  fun v r e => ⟨hm v (h v r e).1, (h v r e).2⟩

theorem Yields.map {Q : Val → Prop} {x : Option Val} {r : List Tok} (h : ∀ v, x = some v → Q v) (hr : Toks P r) :
    Yields P (x.map fun v => (v, r)) Q := by
  cases x with
  | none => exact .none
  | some v => exact .ret (h v rfl) hr

variable (P)

/-! What the nonterminals return. -/

def Ge (v : Val) : Prop := Plain v → Expr P v
def GO (v : Val) : Prop := Plain v → Opt P v
def GI (v : Val) : Prop := Plain v → Item P v
def GS (v : Val) : Prop := Plain v → Stmt P v
/-- (A keyword argument of a class pattern is not a pattern.) -/
def GP (v : Val) : Prop := v.isK .keyword = false ∧ (Plain v → Pattern P v)

def LL (Q : Val → Prop) (v : Val) : Prop := ∃ xs, v = .list xs ∧ ∀ x ∈ xs, Q x
def LN (Q : Val → Prop) (v : Val) : Prop := ∃ xs, v = .list xs ∧ xs ≠ [] ∧ ∀ x ∈ xs, Q x

def AnnOut (ann : Bool) (a : Val) : Prop := (ann = false → a = .none) ∧ GO P a
/-- The annotation of `*args`. -/
def AnnArgs (ann : Bool) (a : Val) : Prop := (ann = false → a = .none) ∧ (Plain a → a = .none ∨ Item P a)

inductive ParamOut (ann : Bool) : Val → Prop
  | slash : ParamOut ann (.str "/")
  | bare : ParamOut ann (.str "*")
  | star {x a} : IsName P x → AnnArgs P ann a → ParamOut ann (.list [.str "*", argOf x a])
  | double {x a} : IsName P x → AnnOut P ann a → ParamOut ann (.list [.str "**", argOf x a])
  | plain {x a d} : IsName P x → AnnOut P ann a → GO P d → ParamOut ann (.list [argOf x a, d])

/-- The parameters of a `lambda`. -/
def LamArgs (v : Val) : Prop := ∃ ps as ks a b ds, (∀ p ∈ ps ++ as ++ ks, IsName P p.name) ∧ (∀ p ∈ ps ++ as ++ ks, p.ann = .none) ∧
  Star P a ∧ Star P b ∧ (∀ p ∈ ps ++ as ++ ks, Opt P p.default) ∧ defaultsOf ((ps ++ as).map Param.default) = some ds ∧
  v = argumentsTree ps as a ks b ds

def PatKeyOut (k : Val) : Prop := PatKey P k ∨ k.isK .UnaryOp = true ∨ k.isK .BinOp = true

def Out : NT → Val → Prop
  | .expr | .disj | .conj | .inv | .cmp | .bin _ | .factor | .power | .await | .primary | .atom | .binRest .. | .primRest _
  | .paren | .brack | .brace => Ge P
  | .disjRest | .conjRest | .ifs | .decos => LL (Ge P)
  | .cmpRest => LL fun x => ∃ k b, x = .list [mk k [], b] ∧ k ∈ comparisons ∧ Ge P b
  | .elem => GI P
  | .items item _ => LL (Out item)
  | .pairs => LL fun x => ∃ k v, x = .list [k, v] ∧ (k = .none ∨ Ge P k) ∧ Ge P v
  | .comps => LL fun c => Plain c → Clause P c
  | .target => fun t => Plain t → IsTarget P t
  | .subs => fun s => Plain s → ∀ a, Expr P a → s ≠ tuple [] → Expr P (subscript a s)
  | .slice => fun s => Plain s → Index P s
  | .arg => fun a => Plain a → Item P a ∨ Keyword P a
  | .param ann => ParamOut P ann
  | .params ann _ => fun v => Plain v → IsArguments P v ∧ (ann = false → LamArgs P v)
  | .ident => fun v => ∃ x, IsName P x ∧ v = .str x
  | .sep item => LN (Out item)
  | .dotted => fun v => ∃ xs, xs ≠ [] ∧ (∀ x ∈ xs, IsName P x) ∧ v = .str (dottedName xs)
  | .dots => fun v => ∃ n : Nat, v = .int n
  | .importAs => ImportAlias P
  | .fromAs => FromAlias P
  | .delTarget => fun t => Plain t → IsDelTarget P t
  | .assigns => LN (GI P)
  | .simple | .stmt | .ifRest => GS P
  | .block => LN (GS P)
  | .stmts | .file | .elifs | .orelse | .finals => LL (GS P)
  | .withItem => fun v => ∃ a t, v = withItemOf a t ∧ Ge P a ∧ (t = .none ∨ (Plain t → IsTarget P t))
  | .handlers star => LL fun h => Plain h → Handler P star h
  | .pattern | .closedPat | .patParen => GP P
  | .orRest => LL (GP P)
  | .patElem => fun v => v.isK .keyword = false ∧ (Plain v → SeqItem P v)
  | .patPair => fun v => (∃ x, IsCapture P x ∧ v = .list [.str x]) ∨ ∃ k q, v = .list [k, q] ∧ PatKeyOut P k ∧ GP P q
  | .patArg => fun v => GP P v ∨ ∃ x q, IsName P x ∧ GP P q ∧ v = keywordOf (.str x) q
  | .cases => LL fun c => Plain c → Case P c
  | .typeParam => fun v => Plain v → TypeParam P v

def Pre : NT → Prop
  | .binRest _ a => Ge P a
  | .primRest a => Ge P a
  | .items item _ => Pre item
  | .sep item => Pre item
  | _ => True

/-- When the result is empty. -/
def Extra : NT → List Tok → Val → List Tok → Prop
  | .comps, ts, v, r => v = .list [] → r = ts
  | .cases, ts, v, _ => v = .list [] → ts.head? = some .dedent
  | .handlers _, ts, v, _ => v = .list [] → isStar ts = false
  | _, _, _, _ => True

def Sound (p : Parser) : Prop := ∀ nt ts, Pre P nt → Toks P ts → ∀ v r, p nt ts = some (v, r) → Out P nt v ∧ Toks P r ∧ Extra nt ts v r

variable {P} {p : Parser}

theorem Sound.y (hp : Sound P p) {nt : NT} {ts : List Tok} (hn : Pre P nt) (ht : Toks P ts) : Yields P (p nt ts) (Out P nt) :=
  fun v r h => ⟨(hp nt ts hn ht v r h).1, (hp nt ts hn ht v r h).2.1⟩

/-! Facts about expressions. -/

theorem Expr.notK {v : Val} (h : Expr P v) : v.isK .keyword = false ∧ v.isK .Starred = false := by
  cases h <;> (try exact ⟨rfl, rfl⟩)
  · rename_i k _ _ hk _ _ _
    simp at hk
    rcases hk with rfl | rfl | rfl <;> exact ⟨rfl, rfl⟩

theorem Keyword.isK {v : Val} (h : Keyword P v) : v.isK .keyword = true := by
  cases h <;> rfl

theorem Item.notK {v : Val} (h : Item P v) : v.isK .keyword = false := by
  cases h with
  | expr h => exact h.notK.1
  | starred h => rfl

theorem Item.unstarred {v : Val} (h : Item P v) (hs : isStarred v = false) : Expr P v := by
  cases h with
  | expr h => exact h
  | starred h => cases hs

theorem GI.expr {v : Val} (h : GI P v) (hs : ¬ isStarred v = true) : Ge P v :=
  fun hv => (h hv).unstarred (by simpa using hs)

theorem cons_eq {x : Val} {xs : List Val} : cons x (.list xs) = .list (x :: xs) := rfl

theorem LL.cons {Q : Val → Prop} {x l : Val} (hx : Q x) (hl : LL Q l) : LN Q (PyText.cons x l) := by
  obtain ⟨xs, rfl, h⟩ := hl
  exact ⟨x :: xs, rfl, by simp, by simpa using ⟨hx, h⟩⟩

theorem LN.ll {Q : Val → Prop} {l : Val} (h : LN Q l) : LL Q l := by
  obtain ⟨xs, h1, _, h2⟩ := h
  exact ⟨xs, h1, h2⟩

theorem LL.nil {Q : Val → Prop} : LL Q (.list []) := ⟨[], rfl, by simp⟩
theorem LN.one {Q : Val → Prop} {x : Val} (h : Q x) : LN Q (.list [x]) := ⟨[x], rfl, by simp, by simpa using h⟩

theorem LL.elts {Q : Val → Prop} {l : Val} (h : LL Q l) : ∀ x ∈ Val.elts l, Q x := by
  obtain ⟨xs, rfl, h⟩ := h
  exact h

/-! The levels of expressions. -/

section
variable (hp : Sound P p) {ts : List Tok} (ht : Toks P ts)
include hp ht

theorem y_expr : Yields P (pExpr p ts) (Ge P) := by
  unfold pExpr
  split
  · refine (hp.y (nt := .params false .colon) trivial (by toks!)).seq fun a r ha hr => (hp.y (nt := .expr) trivial hr).seq fun b r hb hr => .ret ?_ hr
    intro h
    obtain ⟨_, h1⟩ := ha (part% h, .args)
    obtain ⟨ps, as, ks, a, b, ds, g1, g2, g3, g4, g5, g6, rfl⟩ := h1 rfl
    exact .lambda g1 g2 g3 g4 g5 g6 (hb (part% h, .body))
  · refine (hp.y (nt := .disj) trivial ht).seq fun a r ha hr => ?_
    unfold ternary
    split
    · refine (hp.y (nt := .disj) trivial (by toks!)).seq fun b r hb hr => ?_
      unfold ternaryElse
      split
      · refine (hp.y (nt := .expr) trivial (by toks!)).seq fun c r hc hr => .ret ?_ hr
        exact fun h => .ifExp (ha (part% h, .body)) (hb (part% h, .test)) (hc (part% h, .orelse))
      · exact .none
    · exact .ret ha hr

omit hp ht in
theorem g_bool {k : K} (hk : k = .And ∨ k = .Or) {a l : Val} (ha : Ge P a) (hl : LL (Ge P) l) : Ge P (boolOp k a (Val.elts l)) := by
  obtain ⟨xs, rfl, hx⟩ := hl
  cases xs with
  | nil => exact ha
  | cons b bs =>
    intro h
    refine .boolOp (xs := a :: b :: bs) hk (by simp) fun x m => ?_
    have hm := (parts% h, .values) x m
    rcases List.mem_cons.1 m with rfl | m
    · exact ha hm
    · exact hx x m hm

theorem y_disj : Yields P (pDisj p ts) (Ge P) :=
  (hp.y (nt := .conj) trivial ht).seq fun a r ha hr => (hp.y (nt := .disjRest) trivial hr).seq fun l r hl hr =>
    .ret (g_bool (.inr rfl) ha hl) hr

theorem y_conj : Yields P (pConj p ts) (Ge P) :=
  (hp.y (nt := .inv) trivial ht).seq fun a r ha hr => (hp.y (nt := .conjRest) trivial hr).seq fun l r hl hr =>
    .ret (g_bool (.inl rfl) ha hl) hr

theorem y_disjRest : Yields P (pDisjRest p ts) (LL (Ge P)) := by
  unfold pDisjRest
  split
  · exact (hp.y (nt := .conj) trivial (by toks!)).seq fun a r ha hr => (hp.y (nt := .disjRest) trivial hr).seq fun l r hl hr =>
      .ret (LL.cons ha hl).ll hr
  · exact .ret .nil ht

theorem y_conjRest : Yields P (pConjRest p ts) (LL (Ge P)) := by
  unfold pConjRest
  split
  · exact (hp.y (nt := .inv) trivial (by toks!)).seq fun a r ha hr => (hp.y (nt := .conjRest) trivial hr).seq fun l r hl hr =>
      .ret (LL.cons ha hl).ll hr
  · exact .ret .nil ht

theorem y_inv : Yields P (pInv p ts) (Ge P) := by
  unfold pInv
  split
  · exact (hp.y (nt := .inv) trivial (by toks!)).seq fun a r ha hr =>
      .ret (fun h => .unaryOp (by decide) (ha (part% h, .operand))) hr
  · exact hp.y (nt := .cmp) trivial ht

theorem y_cmp : Yields P (pCmp p ts) (Ge P) := by
  refine (hp.y (nt := .bin 0) trivial ht).seq fun a r ha hr => (hp.y (nt := .cmpRest) trivial hr).seq fun l r hl hr => .ret ?_ hr
  obtain ⟨xs, rfl, hx⟩ := hl
  have key : ∃ ps : List (K × Val), xs = ps.map (fun p => .list [mk p.1 [], p.2]) ∧ ∀ p ∈ ps, p.1 ∈ comparisons ∧ Ge P p.2 := by
    clear ha hr
    induction xs with
    | nil => exact ⟨[], rfl, by simp⟩
    | cons x xs ih =>
      obtain ⟨ps, rfl, h⟩ := ih fun y hy => hx y (by simp [hy])
      obtain ⟨k, b, rfl, hk, hb⟩ := hx _ List.mem_cons_self
      exact ⟨(k, b) :: ps, rfl, by simpa using ⟨⟨hk, hb⟩, fun a b h' => h (a, b) h'⟩⟩
  obtain ⟨ps, rfl, hps⟩ := key
  cases ps with
  | nil => exact ha
  | cons q ps =>
    intro h
    have e : compare a (Val.elts (.list ((q :: ps).map fun p => .list [mk p.1 [], p.2]))) = compareTree a (q :: ps) := by
      simp [compare, compareTree, Val.elts, fst, snd]
    rw [e] at h ⊢
    exact .compare (ha (part% h, .left)) (by simp) (fun p m => (hps p m).1)
      fun p m => (hps p m).2 ((parts% h, .comparators) _ (List.mem_map_of_mem m))

omit hp in
theorem cmpOp_ok {k : K} {r : List Tok} (h : cmpOp? ts = some (k, r)) : k ∈ comparisons ∧ Toks P r := by
  unfold cmpOp? at h
  split at h <;> cases h <;> exact ⟨by decide, by toks!⟩

theorem y_cmpRest : Yields P (pCmpRest p ts) (Out P .cmpRest) := by
  unfold pCmpRest
  split
  · rename_i k r e
    obtain ⟨hk, hr⟩ := cmpOp_ok ht e
    exact (hp.y (nt := .bin 0) trivial hr).seq fun b r hb hr => (hp.y (nt := .cmpRest) trivial hr).seq fun l r hl hr =>
      .ret (LL.cons ⟨k, b, rfl, hk, hb⟩ hl).ll hr
  · exact .ret .nil ht

theorem y_next (l : Nat) : Yields P (p (binNext l) ts) (Ge P) := by
  unfold binNext
  split
  · exact hp.y (nt := .bin _) trivial ht
  · exact hp.y (nt := .factor) trivial ht

theorem y_bin (l : Nat) : Yields P (pBin p l ts) (Ge P) :=
  (y_next hp ht l).seq fun a r ha hr => hp.y (nt := .binRest l a) ha hr

omit hp in
theorem binOp_ok {l : Nat} {k : K} {r : List Tok} (h : binOp? l ts = some (k, r)) : k ∈ binaryOps ∧ Toks P r := by
  unfold binOp? at h
  split at h
  · rename_i s r
    cases hb : binSym l s with
    | none => rw [hb] at h; cases h
    | some k =>
      rw [hb] at h
      cases h
      refine ⟨?_, by toks!⟩
      unfold binSym at hb
      split at hb <;> cases hb <;> decide
  · cases h

omit hp ht in
theorem ge_binOp {a b : Val} {k : K} (hk : k ∈ binaryOps) (ha : Ge P a) (hb : Ge P b) : Ge P (binOp a k b) :=
  fun h => .binOp hk (ha (part% h, .left)) (hb (part% h, .right))

theorem y_binRest (l : Nat) {a : Val} (ha : Ge P a) : Yields P (pBinRest p l a ts) (Ge P) := by
  unfold pBinRest
  split
  · rename_i k r e
    obtain ⟨hk, hr⟩ := binOp_ok ht e
    exact (y_next hp hr l).seq fun b r hb hr => hp.y (nt := .binRest l (binOp a k b)) (ge_binOp hk ha hb) hr
  · exact .ret ha ht

omit hp in
theorem unOp_ok {k : K} {r : List Tok} (h : unOp? ts = some (k, r)) : k ∈ [K.UAdd, .USub, .Invert, .Not] ∧ Toks P r := by
  unfold unOp? at h
  split at h
  · rename_i s r
    cases hb : unSym s with
    | none => rw [hb] at h; cases h
    | some k =>
      rw [hb] at h
      cases h
      refine ⟨?_, by toks!⟩
      unfold unSym at hb
      split at hb <;> cases hb <;> decide
  · cases h

theorem y_factor : Yields P (pFactor p ts) (Ge P) := by
  unfold pFactor
  split
  · rename_i k r e
    obtain ⟨hk, hr⟩ := unOp_ok ht e
    exact (hp.y (nt := .factor) trivial hr).seq fun a r ha hr => .ret (fun h => .unaryOp hk (ha (part% h, .operand))) hr
  · exact hp.y (nt := .power) trivial ht

theorem y_power : Yields P (pPower p ts) (Ge P) := by
  refine (hp.y (nt := .await) trivial ht).seq fun a r ha hr => ?_
  unfold powerRest
  split
  · exact (hp.y (nt := .factor) trivial (by toks!)).seq fun b r hb hr => .ret (ge_binOp (by decide) ha hb) hr
  · exact .ret ha hr

theorem y_await : Yields P (pAwait p ts) (Ge P) := by
  unfold pAwait
  split
  · exact (hp.y (nt := .primary) trivial (by toks!)).seq fun a r ha hr => .ret (fun h => .await (ha (part% h, .value))) hr
  · exact hp.y (nt := .primary) trivial ht

theorem y_primary : Yields P (pPrimary p ts) (Ge P) :=
  (hp.y (nt := .atom) trivial ht).seq fun a r ha hr => hp.y (nt := .primRest a) ha hr

omit hp ht in
theorem callParts_out : ∀ {xs as ks : List Val}, callParts xs = some (as, ks) →
    (∀ a ∈ as, a ∈ xs ∧ a.isK .keyword = false) ∧ ∀ k ∈ ks, k ∈ xs ∧ k.isK .keyword = true
  | [], as, ks, h => by cases h; simp
  | x :: xs, as, ks, h => by
    rw [callParts] at h
    split at h
    · rename_i as' ks' e
      obtain ⟨h1, h2⟩ := callParts_out e
      split at h
      · rename_i hx
        split at h
        · cases h
          refine ⟨by simp, fun k m => ?_⟩
          rcases List.mem_cons.1 m with rfl | m
          · exact ⟨by simp, hx⟩
          · exact ⟨by simp [(h2 k m).1], (h2 k m).2⟩
        · cases h
      · rename_i hx
        cases h
        refine ⟨fun a m => ?_, fun k m => ⟨by simp [(h2 k m).1], (h2 k m).2⟩⟩
        rcases List.mem_cons.1 m with rfl | m
        · exact ⟨by simp, by simpa using hx⟩
        · exact ⟨by simp [(h1 a m).1], (h1 a m).2⟩
    · cases h

omit hp ht in
theorem args_ok {xs as ks : List Val} (hx : ∀ x ∈ xs, Out P .arg x) (h : callParts xs = some (as, ks)) :
    (∀ a ∈ as, Plain a → Item P a) ∧ ∀ k ∈ ks, Plain k → Keyword P k := by
  obtain ⟨h1, h2⟩ := callParts_out h
  refine ⟨fun a m hm => ?_, fun k m hm => ?_⟩
  · rcases hx a (h1 a m).1 hm with h | h
    · exact h
    · have := h.isK
      rw [(h1 a m).2] at this
      cases this
  · rcases hx k (h2 k m).1 hm with h | h
    · have := h.notK
      rw [(h2 k m).2] at this
      cases this
    · exact h

theorem y_primRest {a : Val} (ha : Ge P a) : Yields P (pPrimRest p a ts) (Ge P) := by
  unfold pPrimRest
  split
  · rename_i s r
    refine hp.y (nt := .primRest _) (fun h => ?_) (by toks!)
    exact .attribute (ha (part% h, .value)) ht.tail.head
  · refine (hp.y (nt := .items .arg .rpar) trivial (by toks!)).seq fun l r hl hr => ?_
    unfold callRest callOf
    cases e : callParts (Val.elts l) with
    | none => exact .none
    | some q =>
      obtain ⟨as, ks⟩ := q
      obtain ⟨h1, h2⟩ := args_ok (LL.elts hl) e
      refine hp.y (nt := .primRest _) (fun h => ?_) hr
      exact .call (ha (part% h, .func)) (fun x m => h1 x m ((parts% h, .args) x m)) fun x m => h2 x m ((parts% h, .keywords) x m)
  · refine (hp.y (nt := .subs) trivial (by toks!)).seq fun s r hs hr => ?_
    refine hp.y (nt := .primRest _) (fun h => ?_) hr
    refine hs (part% h, .slice) a (ha (part% h, .value)) fun e => h.odd ⟨{}, (.ctx, load), ?_⟩
    rw [e]
    simp [tuple, mk]
  · exact .ret ha ht

theorem y_atom : Yields P (pAtom p ts) (Ge P) := by
  unfold pAtom
  split
  · exact .ret (fun _ => .name ht.head) (by toks!)
  · exact .ret (fun _ => .int _) (by toks!)
  · obtain ⟨s, h1, h2⟩ := ht.head
    exact .ret (fun _ => by rw [h2]; exact .float h1) (by toks!)
  · obtain ⟨s, h1, h2⟩ := ht.head
    exact .ret (fun _ => by rw [h2]; exact .imag h1) (by toks!)
  · exact .ret (fun _ => .str _ _) (by toks!)
  · exact .ret (fun _ => .bytes ht.head) (by toks!)
  · exact .ret (fun _ => .bool _) (by toks!)
  · exact .ret (fun _ => .bool _) (by toks!)
  · exact .ret (fun _ => .none) (by toks!)
  · exact .ret (fun _ => .ellipsis) (by toks!)
  · exact hp.y (nt := .paren) trivial (by toks!)
  · exact hp.y (nt := .brack) trivial (by toks!)
  · exact hp.y (nt := .brace) trivial (by toks!)
  · exact .none

/-! Lists in brackets. -/

theorem y_elem : Yields P (pElem p ts) (GI P) := by
  unfold pElem
  split
  · exact (hp.y (nt := .bin 0) trivial (by toks!)).seq fun a r ha hr => .ret (fun h => .starred (ha (part% h, .value))) hr
  · exact (hp.y (nt := .expr) trivial ht).mono fun v hv h => .expr (hv h)

theorem y_items (item : NT) (hi : Pre P item) (s : Sym) : Yields P (pItems p item s ts) (LL (Out P item)) := by
  unfold pItems
  split
  · refine .ret .nil ?_
    cases ts with
    | nil => exact ht
    | cons t ts => exact ht.tail
  · refine (hp.y hi ht).seq fun x r hx hr => ?_
    unfold itemsRest
    split
    · exact (hp.y (nt := .items item s) hi (by toks!)).seq fun l r hl hr => .ret (LL.cons hx hl).ll hr
    · split
      · exact .ret (LN.one hx).ll (by toks!)
      · exact .none
    · exact .none

omit hp in
theorem y_close {Q : Val → Prop} {s : Sym} {v : Val} (hv : Q v) : Yields P (close s v ts) Q := by
  unfold close
  split
  · split
    · exact .ret hv (by toks!)
    · exact .none
  · exact .none

theorem y_comp {s : Sym} {e : Val → Val} {Q : Val → Prop} (hs : s ≠ .kFor ∧ s ≠ .kAsync) {t : Sym} {r : List Tok}
    (hts : ts = .sym t :: r) (h' : t = .kFor ∨ t = .kAsync) (he : ∀ gs, gs ≠ [] → (∀ g ∈ gs, Plain g → Clause P g) → Q (e (.list gs))) :
    Yields P (compRest p s e ts) Q := by
  intro v r' hv
  unfold compRest at hv
  cases hc : p .comps ts with
  | none => rw [hc] at hv; cases hv
  | some q =>
    obtain ⟨l, r1⟩ := q
    rw [hc] at hv
    obtain ⟨⟨gs, rfl, hg⟩, hr1, hx⟩ := hp .comps ts trivial ht l r1 hc
    have hv : close s (e (.list gs)) r1 = some (v, r') := hv
    by_cases hn : gs = []
    · subst hn
      have := hx rfl
      rw [this, hts] at hv
      unfold close at hv
      dsimp only at hv
      rw [if_neg (by rcases h' with rfl | rfl; exact hs.1; exact hs.2)] at hv
      cases hv
    · exact y_close hr1 (he gs hn hg) v r' hv

omit hp ht in
theorem g_generator {k : K} (hk : k ∈ [K.ListComp, .SetComp, .GeneratorExp]) {a : Val} (ha : Ge P a) (gs : List Val) (hn : gs ≠ [])
    (hg : ∀ g ∈ gs, Plain g → Clause P g) : Ge P (generator k a (.list gs)) :=
  fun h => .comprehension hk (ha (part% h, .elt)) hn fun g m => hg g m ((parts% h, .generators) g m)

omit hp ht in
theorem g_items {l : Val} {a : Val} (ha : GI P a) (hl : LL (GI P) l) : ∀ x ∈ a :: Val.elts l, GI P x := by
  intro x m
  rcases List.mem_cons.1 m with rfl | m
  · exact ha
  · exact LL.elts hl x m

theorem y_paren : Yields P (pParen p ts) (Ge P) := by
  unfold pParen
  split
  · exact .ret (fun _ => .tuple (by simp)) (by toks!)
  · exact (hp.y (nt := .expr) trivial (by toks!)).seq fun a r ha hr => y_close hr (fun h => .yieldFrom (ha (part% h, .value)))
  · exact .ret (fun _ => .yieldNone) (by toks!)
  · exact (hp.y (nt := .expr) trivial (by toks!)).seq fun a r ha hr => y_close hr (fun h => .yield (ha (part% h, .value)))
  · exact (hp.y (nt := .expr) trivial (by toks!)).seq fun a r ha hr =>
      y_close hr (fun h => .namedExpr ht.head (ha (part% h, .value)))
  · refine (hp.y (nt := .elem) trivial ht).seq fun a r ha hr => ?_
    unfold parenRest
    split
    · refine (hp.y (nt := .items .elem .rpar) trivial (by toks!)).seq fun l r hl hr => .ret (fun h => ?_) hr
      exact .tuple fun x m => g_items ha hl x m ((parts% h, .elts) x m)
    · split
      · exact .none
      · rename_i hs
        exact .ret (GI.expr ha hs) (by toks!)
    · split
      · exact .none
      · rename_i hs
        exact y_comp hp hr (by decide) rfl (.inl rfl) fun gs hn hg => g_generator (by decide) (GI.expr ha hs) gs hn hg
    · split
      · exact .none
      · rename_i hs
        exact y_comp hp hr (by decide) rfl (.inr rfl) fun gs hn hg => g_generator (by decide) (GI.expr ha hs) gs hn hg
    · exact .none

theorem y_brack : Yields P (pBrack p ts) (Ge P) := by
  unfold pBrack
  split
  · exact .ret (fun _ => .list (by simp)) (by toks!)
  · refine (hp.y (nt := .elem) trivial ht).seq fun a r ha hr => ?_
    unfold brackRest
    split
    · refine (hp.y (nt := .items .elem .rbrack) trivial (by toks!)).seq fun l r hl hr => .ret (fun h => ?_) hr
      exact .list fun x m => g_items ha hl x m ((parts% h, .elts) x m)
    · refine .ret (fun h => .list fun x m => ?_) (by toks!)
      cases List.mem_singleton.1 m
      exact ha ((parts% h, .elts) _ m)
    · split
      · exact .none
      · rename_i hs
        exact y_comp hp hr (by decide) rfl (.inl rfl) fun gs hn hg => g_generator (by decide) (GI.expr ha hs) gs hn hg
    · split
      · exact .none
      · rename_i hs
        exact y_comp hp hr (by decide) rfl (.inr rfl) fun gs hn hg => g_generator (by decide) (GI.expr ha hs) gs hn hg
    · exact .none

/-- A pair of a dict display. -/
def PairOut (P : Reading) (x : Val) : Prop := ∃ k v, x = .list [k, v] ∧ (k = .none ∨ Ge P k) ∧ Ge P v

theorem y_pairsRest {kv : Val} (hk : PairOut P kv) : Yields P (pairsRest p kv ts) (LL (PairOut P)) := by
  unfold pairsRest
  split
  · exact (hp.y (nt := .pairs) trivial (by toks!)).seq fun l r hl hr => .ret (LL.cons hk hl).ll hr
  · exact .ret (LN.one hk).ll (by toks!)
  · exact .none

theorem y_pairs : Yields P (pPairs p ts) (LL (PairOut P)) := by
  unfold pPairs
  split
  · exact .ret .nil (by toks!)
  · exact (hp.y (nt := .bin 0) trivial (by toks!)).seq fun v r hv hr => y_pairsRest hp hr ⟨_, _, rfl, .inl rfl, hv⟩
  · refine (hp.y (nt := .expr) trivial ht).seq fun k r hk hr => ?_
    unfold pairValue
    split
    · exact (hp.y (nt := .expr) trivial (by toks!)).seq fun v r hv hr => y_pairsRest hp hr ⟨_, _, rfl, .inr hk, hv⟩
    · exact .none

omit hp ht in
theorem ge_dict {l : Val} (hl : LL (PairOut P) l) : Ge P (dict (Val.elts l)) := by
  obtain ⟨xs, rfl, hx⟩ := hl
  have key : ∃ ps : List (Val × Val), xs = ps.map (fun p => .list [p.1, p.2]) ∧ ∀ p ∈ ps, (p.1 = .none ∨ Ge P p.1) ∧ Ge P p.2 := by
    induction xs with
    | nil => exact ⟨[], rfl, by simp⟩
    | cons x xs ih =>
      obtain ⟨ps, rfl, h⟩ := ih fun y hy => hx y (by simp [hy])
      obtain ⟨k, b, rfl, hk, hb⟩ := hx _ List.mem_cons_self
      exact ⟨(k, b) :: ps, rfl, by simpa using ⟨⟨hk, hb⟩, fun a b h' => h (a, b) h'⟩⟩
  obtain ⟨ps, rfl, hps⟩ := key
  have e : dict (Val.elts (.list (ps.map fun p => .list [p.1, p.2]))) = dictTree ps := by
    simp [dict, dictTree, Val.elts, fst, snd, Function.comp_def]
  rw [e]
  intro h
  refine .dict (fun q m => ?_) fun q m => (hps q m).2 ((parts% h, .values) _ (List.mem_map_of_mem m))
  rcases (hps q m).1 with h0 | h0
  · exact absurd ⟨_, by simp, List.mem_map.2 ⟨q, m, h0⟩⟩ h.odd
  · exact h0 ((parts% h, .keys) _ (List.mem_map_of_mem m))

theorem y_brace : Yields P (pBrace p ts) (Ge P) := by
  unfold pBrace
  split
  · exact .ret (ge_dict (l := .list []) .nil) (by toks!)
  · exact (hp.y (nt := .pairs) trivial ht).seq fun l r hl hr => .ret (ge_dict hl) hr
  · refine (hp.y (nt := .elem) trivial ht).seq fun a r ha hr => ?_
    unfold braceRest
    split
    · split
      · exact .none
      · rename_i hs
        refine (hp.y (nt := .expr) trivial (by toks!)).seq fun v r hv hr => ?_
        unfold dictRest
        split
        · exact y_comp hp hr (by decide) rfl (.inl rfl) fun gs hn hg h =>
            .dictComp (GI.expr ha hs (part% h, .key)) (hv (part% h, .value)) hn fun g m => hg g m ((parts% h, .generators) g m)
        · exact y_comp hp hr (by decide) rfl (.inr rfl) fun gs hn hg h =>
            .dictComp (GI.expr ha hs (part% h, .key)) (hv (part% h, .value)) hn fun g m => hg g m ((parts% h, .generators) g m)
        · exact (y_pairsRest hp hr ⟨_, _, rfl, .inr (GI.expr ha hs), hv⟩).seq fun l r hl hr => .ret (ge_dict hl) hr
    · refine (hp.y (nt := .items .elem .rbrace) trivial (by toks!)).seq fun l r hl hr => .ret (fun h => ?_) hr
      obtain ⟨xs, rfl, hx⟩ := hl
      exact .set (xs := a :: xs) (by simp) fun x m => g_items ha ⟨xs, rfl, hx⟩ x m (h.getL (f := .elts) (xs := a :: xs) List.mem_cons_self (by decide) x m)
    · refine .ret (fun h => .set (xs := [a]) (by simp) fun x m => ?_) (by toks!)
      cases List.mem_singleton.1 m
      exact ha ((parts% h, .elts) _ m)
    · split
      · exact .none
      · rename_i hs
        exact y_comp hp hr (by decide) rfl (.inl rfl) fun gs hn hg => g_generator (by decide) (GI.expr ha hs) gs hn hg
    · split
      · exact .none
      · rename_i hs
        exact y_comp hp hr (by decide) rfl (.inr rfl) fun gs hn hg => g_generator (by decide) (GI.expr ha hs) gs hn hg
    · exact .none

end

end Mcpyrate.PyText
