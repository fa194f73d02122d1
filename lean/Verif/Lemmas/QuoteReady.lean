import Verif.Spec.QuoteOps
import Verif.Lemmas.DelLike
import Verif.Lemmas.ExpanderKept
import Verif.Lemmas.ExpanderFixpoint
/-
The code that the quasiquote compiler generates invokes no macros, when the code that it embeds invokes none.
-/
namespace Mcpyrate.QuoteOps
open Py Expander Quotes

variable {σ : Type}

mutual
theorem toVal_of (v : Val) : Obj.toVal (.ofVal v) = some v := by
  match v with
  | .const _ => rfl
  | .list xs => simp only [Obj.ofVal, Obj.toVal, toVals_of xs]; rfl
  | .node c l fs => simp only [Obj.ofVal, Obj.toVal, toFields_of fs]; rfl
theorem toVals_of (vs : List Val) : Obj.toVals (Obj.ofVals vs) = some vs := by
  match vs with
  | [] => rfl
  | v :: vs => simp only [Obj.ofVals, Obj.toVals, toVal_of v, toVals_of vs]
theorem toFields_of (fs : List (F × Val)) : Obj.toFields (Obj.ofFields fs) = some fs := by
  match fs with
  | [] => rfl
  | (f, v) :: fs => simp only [Obj.ofFields, Obj.toFields, toVal_of v, toFields_of fs]
end

theorem ofVal_inj {v w : Val} (h : Obj.ofVal v = Obj.ofVal w) : v = w := by
  have := toVal_of v
  rw [h, toVal_of w] at this
  exact (Option.some.inj this).symm

/-- `mcpyrate.quotes.a` -/
def attrCode (a : String) : Val :=
  mk .Attribute [(.value, mk .Attribute [(.value, mk .Name [(.id, .str "mcpyrate")]), (.attr, .str "quotes")]), (.attr, .str a)]

theorem ofVal_attrCode (a : String) : Obj.ofVal (attrCode a) = quotesAttr a := rfl

/-! ### markers and locations -/

theorem Unmarked.child {t u : Val} (h : Unmarked t) (hc : Child t u) : Unmarked u := fun v hv => h v (.step hc hv)

theorem isCtx_unmarked {s : K} {u : Val} (h : Reach (mk s []) u) : u = mk s [] := by
  cases h with
  | refl => rfl
  | step hc => cases hc with
    | field hm => cases hm
    | item hm => cases hm

theorem childNodes_iff {t u : Val} : u ∈ childNodes t ↔ Child t u := ⟨childNodes_child, child_mem⟩

theorem Unmarked.like {t u : Val} (ht : Unmarked t) (h : Like t u) : Unmarked u := by
  intro v hv
  induction hv generalizing t with
  | refl u =>
    intro n l fs he
    subst he
    cases h with
    | node => exact ht _ (.refl _) n _ _ rfl
  | step hc _ ih =>
    rcases h.child (child_mem hc) with ⟨x, hx, hl⟩ | hctx
    · exact ih (ht.child (childNodes_child hx)) hl
    · obtain ⟨k, -, rfl⟩ := hctx
      exact ih (t := mk k []) (fun v hv => by rintro n l fs rfl; cases isCtx_unmarked hv) (.refl _)

section
variable {E : Env (User σ)} {w : W σ}

/-- Ready for the compiler: all markers are `Done`, or commands to embed code that invokes no macros.  At level zero there
are no commands. -/
inductive Ready (E : Env (User σ)) (w : W σ) : Nat → Val → Prop
  | const {n c} : Ready E w n (.const c)
  | list {n xs} : (∀ x ∈ xs, Ready E w n x) → Ready E w n (.list xs)
  | py {n k l fs} : (∀ p ∈ fs, Ready E w n p.2) → Ready E w n (.node (.py k) l fs)
  | done {n l fs} : (∀ p ∈ fs, Ready E w n p.2) → Ready E w n (.node (.marker "Done") l fs)
  | command {n nm l x gs} : n ≠ 0 → nm ≠ "Done" → x.isAST = true → NoInvocations E w x → Ready E w 0 x →
      Ready E w n (.node (.marker nm) l ((.body, x) :: gs))

/-- Code that the compiler may embed. -/
structure Embeds (E : Env (User σ)) (w : W σ) (x : Val) : Prop where
  isAST : x.isAST = true
  clean : NoInvocations E w x
  ready : Ready E w 0 x

theorem Ready.positive {n n' : Nat} {t : Val} (h : Ready E w n t) (hn : n ≠ 0) (hn' : n' ≠ 0) : Ready E w n' t := by
  induction h with
  | const => exact .const
  | list _ ih => exact .list fun x hx => ih x hx hn
  | py _ ih => exact .py fun x hx => ih x hx hn
  | done _ ih => exact .done fun x hx => ih x hx hn
  | command _ h1 h2 h3 h4 => exact .command hn' h1 h2 h3 h4

theorem Ready.ctx {n : Nat} {s : K} : Ready E w n (mk s []) := .py (by simp)

mutual
theorem Ready.like {n : Nat} {t u : Val} (h : Like t u) (ht : Ready E w n t) : Ready E w n u := by
  match h with
  | .const c => exact .const
  | .list hl => cases ht with | list ht => exact .list (Ready.likeL hl ht)
  | .node hf _ => cases ht with
    | py ht => exact .py (Ready.likeF hf ht)
    | done ht => exact .done (Ready.likeF hf ht)
    | command h0 hn h1 h2 h3 =>
      cases hf with
      | field hb hg => exact .command h0 hn (by rw [hb.isAST]; exact h1) (h2.like hb) (Ready.like hb h3)
theorem Ready.likeF {n : Nat} {c : Cls} {fs gs : Fields} (h : LikeF c fs gs) (ht : ∀ p ∈ fs, Ready E w n p.2) :
    ∀ p ∈ gs, Ready E w n p.2 := by
  match h with
  | .nil => exact ht
  | .extra _ _ => intro p hp; rcases List.mem_singleton.mp hp with rfl; exact .ctx
  | .field hv hr =>
    intro p hp
    rcases List.mem_cons.mp hp with rfl | hp
    · exact Ready.like hv (ht _ List.mem_cons_self)
    · exact Ready.likeF hr (fun q hq => ht q (List.mem_cons_of_mem _ hq)) p hp
  | .ctx _ _ hr =>
    intro p hp
    rcases List.mem_cons.mp hp with rfl | hp
    · exact .ctx
    · exact Ready.likeF hr (fun q hq => ht q (List.mem_cons_of_mem _ hq)) p hp
theorem Ready.likeL {n : Nat} {xs ys : List Val} (h : LikeL xs ys) (ht : ∀ x ∈ xs, Ready E w n x) :
    ∀ y ∈ ys, Ready E w n y := by
  match h with
  | .nil => exact ht
  | .same hr =>
    intro p hp
    rcases List.mem_cons.mp hp with rfl | hp
    · exact ht _ List.mem_cons_self
    · exact Ready.likeL hr (fun q hq => ht q (List.mem_cons_of_mem _ hq)) p hp
  | .cons hv hr =>
    intro p hp
    rcases List.mem_cons.mp hp with rfl | hp
    · exact Ready.like hv (ht _ List.mem_cons_self)
    · exact Ready.likeL hr (fun q hq => ht q (List.mem_cons_of_mem _ hq)) p hp
end

theorem Ready.child {t u : Val} (h : Ready E w 0 t) (hc : Child t u) : Ready E w 0 u := by
  cases hc with
  | field hm => cases h with
    | py h => exact h _ hm
    | done h => exact h _ hm
    | command h => exact absurd rfl h
  | item hm hx => cases h with
    | py h => cases h _ hm with | list h => exact h _ hx
    | done h => cases h _ hm with | list h => exact h _ hx
    | command h => exact absurd rfl h
  | elt hx => cases h with | list h => exact h _ hx

theorem Ready.unmarked {t : Val} (h : Ready E w 0 t) : Unmarked t := by
  intro u hu
  induction hu with
  | refl t =>
    rintro n l fs rfl
    cases h with
    | done => rfl
    | command h => exact absurd rfl h
  | step hc _ ih => exact ih (h.child hc)

theorem child_size {t u : Val} (h : Child t u) : sizeOf u < sizeOf t := by
  cases h with
  | field hm => 
    have := List.sizeOf_lt_of_mem hm
    simp only [Prod.mk.sizeOf_spec] at this
    simp only [Val.node.sizeOf_spec]
    omega
  | item hm hx =>
    have h1 := List.sizeOf_lt_of_mem hm
    have h2 := List.sizeOf_lt_of_mem hx
    simp only [Prod.mk.sizeOf_spec, Val.list.sizeOf_spec] at h1
    simp only [Val.node.sizeOf_spec]
    omega
  | elt hx =>
    have h2 := List.sizeOf_lt_of_mem hx
    simp only [Val.list.sizeOf_spec]
    omega

theorem Unmarked.ready_le {n : Nat} (m : Nat) : ∀ t : Val, sizeOf t < m → Unmarked t → FlatLists t → t.isAST = true →
    Ready E w n t := by
  induction m with
  | zero => intro t h; omega
  | succ m ih =>
    intro t hm h hf ha
    cases t with
    | const => cases ha
    | list => cases ha
    | node c l fs =>
    have step : ∀ v, v.isAST = true → Child (.node c l fs) v → Ready E w n v := fun v hv hc =>
      ih v (by have := child_size hc; omega) (h.child hc) (fun u hu => hf u (.step hc hu)) hv
    have key : ∀ p ∈ fs, Ready E w n p.2 := by
      rintro ⟨f, v⟩ hp
      cases v with
      | const => exact .const
      | node c' l' gs => exact step _ rfl (.field hp rfl)
      | list xs =>
        refine .list fun x hx => ?_
        cases x with
        | const => exact .const
        | list ys => exact absurd hx (hf _ (.refl _) c l fs rfl f xs hp ys)
        | node c' l' gs => exact step _ rfl (.item hp hx rfl)
    cases c with
    | py k => exact .py key
    | marker nm =>
      have := h _ (.refl _) nm l fs rfl
      subst this
      exact .done key

theorem Unmarked.ready {n : Nat} {t : Val} (h : Unmarked t) (hf : FlatLists t) (ha : t.isAST = true) : Ready E w n t :=
  Unmarked.ready_le _ t (Nat.lt_succ_self _) h hf ha

theorem Embeds.unmarked {x : Val} (h : Embeds E w x) : Unmarked x := h.ready.unmarked

/-! ### generated code -/

/-- The classes of the nodes of generated code. -/
def genClasses : List K := [.Call, .Attribute, .Name, .Constant, .keyword, .List, .Tuple]

/-- Generated code, with other code embedded. -/
inductive Code (E : Env (User σ)) (w : W σ) : Val → Prop
  | part {v} : Embeds E w v → Code E w v
  | const {c} : Code E w (.const c)
  | list {xs} : (∀ x ∈ xs, Code E w x) → Code E w (.list xs)
  | node {k l fs} : k ∈ genClasses → (k = .Name → fs.lookup .id = some (.str "mcpyrate")) → (∀ p ∈ fs, Code E w p.2) →
      Code E w (.node (.py k) l fs)

theorem Code.child {t u : Val} (h : Code E w t) (hc : Child t u) : Embeds E w t ∨ Code E w u := by
  cases hc with
  | field hm => cases h with
    | part h => exact .inl h
    | node _ _ h => exact .inr (h _ hm)
  | item hm hx => cases h with
    | part h => exact .inl h
    | node _ _ h =>
      cases h _ hm with
      | part h => cases h.isAST
      | list h => exact .inr (h _ hx)
  | elt hx => cases h with
    | part h => exact .inl h
    | list h => exact .inr (h _ hx)

theorem Code.ready {t : Val} (h : Code E w t) : Ready E w 0 t := by
  induction h with
  | part h => exact h.ready
  | const => exact .const
  | list _ ih => exact .list ih
  | node _ _ _ ih => exact .py ih

theorem Code.unmarked {t : Val} (h : Code E w t) : Unmarked t := by
  intro u hu
  induction hu with
  | refl t =>
    rintro n l fs rfl
    cases h with
    | part h => exact h.unmarked _ (.refl _) n l fs rfl
  | step hc hr ih =>
    rcases h.child hc with h | h
    · exact h.unmarked _ (.step hc hr)
    · exact ih h

/-- Generated code has no macro invocations, unless `mcpyrate` is an identifier macro. -/
theorem Code.clean {t : Val} (h : Code E w t) (hm : ∀ i, isbound w "mcpyrate" = some i → (E.macros i).isName = false) :
    NoInvocations E w t := by
  intro u hu
  induction hu with
  | refl t hd =>
    cases h with
    | part h => exact h.clean _ (.refl _ hd)
    | const => exact fun hi => Bool.noConfusion hi.isAST
    | list => exact fun hi => Bool.noConfusion hi.isAST
    | @node k l fs hk hn hf =>
      intro hi
      cases hi with
      | expr h1 =>
        have : k = .Subscript := (eq_of_beq (a := K.Subscript) h1).symm
        subst this; revert hk; decide
      | block h1 =>
        have : k = .With := (eq_of_beq (a := K.With) h1).symm
        subst this; revert hk; decide
      | decorator h1 =>
        rcases h1 with h1 | h1
        · have : k = .FunctionDef := (eq_of_beq (a := K.FunctionDef) h1).symm
          subst this; revert hk; decide
        · have : k = .ClassDef := (eq_of_beq (a := K.ClassDef) h1).symm
          subst this; revert hk; decide
      | name h1 h2 h3 h4 h5 =>
        have : k = .Name := (eq_of_beq (a := K.Name) h1).symm
        have hid := hn this
        have h2' : fs.lookup .id = _ := h2
        rw [h2'] at hid
        cases hid
        rw [hm _ h4] at h5
        cases h5
  | step hd hx ho ih =>
    rcases h.child (childNodes_child hx) with h | h
    · exact h.clean _ (.step hd hx ho)
    · exact ih h

theorem code_const (c : Const) : Code E w (mk .Constant [(.value, .const c), (.kind, .none)]) :=
  .node (by decide) (fun h => by cases h) (by
    intro p hp
    simp only [List.mem_cons, List.not_mem_nil, or_false] at hp
    rcases hp with rfl | rfl <;> exact .const)

theorem code_attr {v : Val} (h : Code E w v) (a : String) : Code E w (mk .Attribute [(.value, v), (.attr, .str a)]) :=
  .node (by decide) (fun h => by cases h) (by
    intro p hp
    simp only [List.mem_cons, List.not_mem_nil, or_false] at hp
    rcases hp with rfl | rfl
    · exact h
    · exact .const)

theorem code_attrCode (a : String) : Code E w (attrCode a) :=
  code_attr (code_attr (.node (by decide) (fun _ => rfl) (by
    intro p hp
    rcases List.mem_singleton.mp hp with rfl
    exact .const)) _) _

theorem code_call {l : Loc} {f : Val} {as ks : List Val} (hf : Code E w f) (ha : ∀ x ∈ as, Code E w x) (hk : ∀ x ∈ ks, Code E w x) :
    Code E w (.node (.py .Call) l [(.func, f), (.args, .list as), (.keywords, .list ks)]) :=
  .node (by decide) (fun h => by cases h) (by
    intro p hp
    simp only [List.mem_cons, List.not_mem_nil, or_false] at hp
    rcases hp with rfl | rfl | rfl
    · exact hf
    · exact .list ha
    · exact .list hk)

theorem code_elts {k : K} {xs : List Val} (hk : k = .List ∨ k = .Tuple) (h : ∀ x ∈ xs, Code E w x) :
    Code E w (mk k [(.elts, .list xs)]) :=
  .node (by rcases hk with rfl | rfl <;> decide) (fun h => by subst h; rcases hk with h | h <;> cases h) (by
    intro p hp
    rcases List.mem_singleton.mp hp with rfl
    exact .list h)

theorem bindQ {α β : Type} {m : Q σ α} {f : α → Q σ β} {s s' : Quotes.St σ} {b : β}
    (h : (m >>= f) s = some (.ok b, s')) : ∃ a s1, m s = some (.ok a, s1) ∧ f a s1 = some (.ok b, s') := by
  change M.bind m f s = _ at h
  simp only [M.bind] at h
  cases hm : m s with
  | none => rw [hm] at h; cases h
  | some p =>
    obtain ⟨r, w1⟩ := p
    rw [hm] at h
    cases r with
    | error e => cases h
    | ok a => exact ⟨a, w1, rfl, h⟩

theorem liftQ {α : Type} {x : Except Err α} {s s' : Quotes.St σ} {a : α} (h : lift x s = some (.ok a, s')) : x = .ok a := by
  cases x with
  | error e => cases h
  | ok b => cases h; rfl

theorem pureQ {α : Type} {a b : α} {s s' : Quotes.St σ} (h : (pure a : Q σ α) s = some (.ok b, s')) : b = a := by
  cases h; rfl

/-- A call of a function of the library. -/
theorem code_command {fn : String} {as : List Val} (h : ∀ x ∈ as, Code E w x) :
    ∃ c, callNode (quotesAttr fn) (Obj.ofVals as) [] = .ofVal c ∧ Code E w c :=
  ⟨.node (.py .Call) {} [(.func, attrCode fn), (.args, .list as), (.keywords, .list [])], rfl,
    code_call (code_attrCode fn) h (by simp)⟩

theorem captureMacro_code {H : Host σ} {f o : Obj} {name : String} {st st' : Quotes.St σ}
    (h : captureMacro H f name st = some (.ok o, st')) : ∃ c, o = .ofVal c ∧ Code E w c := by
  unfold captureMacro at h
  split at h
  · cases h
  · obtain ⟨b, s1, -, h⟩ := bindQ h
    obtain ⟨u, s2, -, h⟩ := bindQ h
    cases pureQ h
    obtain ⟨c, h1, h2⟩ := code_command (E := E) (w := w) (fn := "lookup_macro")
      (as := [mk .Tuple [(.elts, .list [mk .Constant [(.value, .const (.str (scrub H name))), (.kind, .none)],
        mk .Constant [(.value, .const (.str u)), (.kind, .none)], mk .Constant [(.value, .const (.bytes b)), (.kind, .none)]])]]) (by
        intro x hx
        rcases List.mem_singleton.mp hx with rfl
        refine code_elts (.inr rfl) ?_
        intro x hx
        simp only [List.mem_cons, List.not_mem_nil, or_false] at hx
        rcases hx with rfl | rfl | rfl <;> exact code_const _)
    exact ⟨c, h1, h2⟩

mutual
theorem astify_ready {n : Nat} {H : Host σ} {B : Option (String → Option Obj)} {o : Obj} {st st' : Quotes.St σ} (x : Val)
    (h : Ready E w n x) (ha : astify H B (.ofVal x) st = some (.ok o, st')) : ∃ c, o = .ofVal c ∧ Code E w c := by
  match x with
  | .const k =>
    have : o = constantNode k := by
      cases k <;> first | exact pureQ ha | cases ha
    subst this
    exact ⟨mk .Constant [(.value, .const k), (.kind, .none)], rfl, code_const k⟩
  | .list xs =>
    cases h with
    | list h =>
      rw [Obj.ofVal, astify] at ha
      obtain ⟨os, s1, h1, h2⟩ := bindQ ha
      obtain ⟨cs, rfl, h3⟩ := astifyL_ready xs h h1
      cases pureQ h2
      exact ⟨mk .List [(.elts, .list cs)], rfl, code_elts (.inl rfl) h3⟩
  | .node (.py k) l fs =>
    cases h with
    | py h =>
      rw [Obj.ofVal, astify] at ha
      obtain ⟨os, s1, h1, h2⟩ := bindQ ha
      obtain ⟨cs, rfl, h3⟩ := astifyF_ready fs h h1
      cases pureQ h2
      exact ⟨.node (.py .Call) (copyLocation (.py .Call) {} (.py k) l)
        [(.func, mk .Attribute [(.value, attrCode "ast"), (.attr, .str k.text)]), (.args, .list []), (.keywords, .list cs)], rfl,
        code_call (code_attr (code_attrCode _) _) (by simp) h3⟩
  | .node (.marker nm) l fs =>
    rw [Obj.ofVal, astify.eq_def] at ha
    dsimp only at ha
    cases h with
    | done h =>
      simp only [String.reduceEq, if_false, if_true] at ha
      obtain ⟨os, s1, h1, h2⟩ := bindQ ha
      obtain ⟨cs, rfl, h3⟩ := astifyF_ready fs h h1
      cases pureQ h2
      exact ⟨.node (.py .Call) {} [(.func, attrCode "Done"), (.args, .list []), (.keywords, .list cs)], rfl,
        code_call (code_attrCode _) (by simp) h3⟩
    | command h0 hn h1 h2 h3 =>
      rename_i x gs
      have hx : Embeds E w x := ⟨h1, h2, h3⟩
      have hb : ∀ {y : Obj} {s s' : Quotes.St σ}, lift (field (Obj.ofFields ((.body, x) :: gs)) .body) s = some (.ok y, s') → y = .ofVal x := by
        intro y s s' hy
        have := liftQ hy
        cases this; rfl
      have one : ∀ fn, ∃ c, callNode (quotesAttr fn) [.ofVal x] [] = .ofVal c ∧ Code E w c := fun fn =>
        code_command (as := [x]) (by intro y hy; rcases List.mem_singleton.mp hy with rfl; exact .part hx)
      have two : ∀ fn k, ∃ c, callNode (quotesAttr fn) [.ofVal x, constantNode k] [] = .ofVal c ∧ Code E w c := fun fn k =>
        code_command (as := [x, mk .Constant [(.value, .const k), (.kind, .none)]]) (by
          intro y hy
          simp only [List.mem_cons, List.not_mem_nil, or_false] at hy
          rcases hy with rfl | rfl
          · exact .part hx
          · exact code_const k)
      split at ha
      · obtain ⟨y, s1, h1, h2⟩ := bindQ ha
        cases hb h1; cases pureQ h2; exact one _
      split at ha
      · obtain ⟨y, s1, h1, h2⟩ := bindQ ha
        cases hb h1
        obtain ⟨z, s2, h3, h4⟩ := bindQ h2
        split at h4
        · cases pureQ h4; exact two _ _
        · cases h4
      split at ha
      · obtain ⟨y, s1, h1, h2⟩ := bindQ ha
        cases hb h1
        obtain ⟨z, s2, h3, h4⟩ := bindQ h2
        split at h4
        · cases pureQ h4; exact two _ _
        · cases h4
      split at ha
      · obtain ⟨y, s1, h1, h2⟩ := bindQ ha
        cases hb h1; cases pureQ h2; exact one _
      split at ha
      · obtain ⟨y, s1, h1, h2⟩ := bindQ ha
        cases hb h1; cases pureQ h2; exact one _
      split at ha
      · obtain ⟨y, s1, h1, h2⟩ := bindQ ha
        cases hb h1
        cases hcap : captured B (.ofVal x) with
        | some p =>
          rw [hcap] at h2
          exact captureMacro_code h2
        | none =>
          rw [hcap] at h2
          obtain ⟨z, s2, h3, h4⟩ := bindQ h2
          split at h4
          · cases pureQ h4; exact two _ _
          · cases h4
      · cases ha
termination_by structural x
theorem astifyL_ready {n : Nat} {H : Host σ} {B : Option (String → Option Obj)} {os : List Obj} {st st' : Quotes.St σ} (xs : List Val)
    (h : ∀ x ∈ xs, Ready E w n x) (ha : astifyL H B (Obj.ofVals xs) st = some (.ok os, st')) :
    ∃ cs, os = Obj.ofVals cs ∧ ∀ c ∈ cs, Code E w c := by
  match xs with
  | [] =>
    rw [Obj.ofVals, astifyL] at ha
    cases pureQ ha
    exact ⟨[], rfl, by simp⟩
  | x :: xs =>
    rw [Obj.ofVals, astifyL] at ha
    obtain ⟨y, s1, h1, h2⟩ := bindQ ha
    obtain ⟨ys, s2, h3, h4⟩ := bindQ h2
    cases pureQ h4
    obtain ⟨c, rfl, h5⟩ := astify_ready x (h x List.mem_cons_self) h1
    obtain ⟨cs, rfl, h6⟩ := astifyL_ready xs (fun y hy => h y (List.mem_cons_of_mem _ hy)) h3
    refine ⟨c :: cs, rfl, fun z hz => ?_⟩
    rcases List.mem_cons.mp hz with rfl | hz
    · exact h5
    · exact h6 z hz
termination_by structural xs
theorem astifyF_ready {n : Nat} {H : Host σ} {B : Option (String → Option Obj)} {os : List Obj} {st st' : Quotes.St σ}
    (fs : List (F × Val)) (h : ∀ p ∈ fs, Ready E w n p.2) (ha : astifyF H B (Obj.ofFields fs) st = some (.ok os, st')) :
    ∃ cs, os = Obj.ofVals cs ∧ ∀ c ∈ cs, Code E w c := by
  match fs with
  | [] =>
    rw [Obj.ofFields, astifyF] at ha
    cases pureQ ha
    exact ⟨[], rfl, by simp⟩
  | (f, x) :: fs =>
    rw [Obj.ofFields, astifyF] at ha
    obtain ⟨y, s1, h1, h2⟩ := bindQ ha
    obtain ⟨ys, s2, h3, h4⟩ := bindQ h2
    cases pureQ h4
    obtain ⟨c, rfl, h5⟩ := astify_ready x (h (f, x) List.mem_cons_self) h1
    obtain ⟨cs, rfl, h6⟩ := astifyF_ready fs (fun y hy => h y (List.mem_cons_of_mem _ hy)) h3
    refine ⟨mk .keyword [(.arg, .str f.text), (.value, c)] :: cs, rfl, fun z hz => ?_⟩
    rcases List.mem_cons.mp hz with rfl | hz
    · refine .node (by decide) (fun h => by cases h) ?_
      intro p hp
      simp only [List.mem_cons, List.not_mem_nil, or_false] at hp
      rcases hp with rfl | rfl
      · exact .const
      · exact h5
    · exact h6 z hz
termination_by structural fs
end

/-- What the compiler makes of a quote. -/
theorem Compiled.code {L : Lib σ} {filename : String} {w0 : W σ} {n : Nat} {d c : Val} (h : Compiled L filename w0 d c)
    (hd : Ready E w n d) : Code E w c ∧ ∃ l as ks a, c = .node (.py .Call) l [(.func, attrCode a), (.args, as), (.keywords, ks)] := by
  obtain ⟨st, st', h⟩ := h
  obtain ⟨o, s1, h1, h2⟩ := bindQ h
  obtain ⟨c0, rfl, h3⟩ := astify_ready d hd h1
  have h4 := pureQ h2
  have h5 : c = .node (.py .Call) {} [(.func, attrCode "splice_ast_literals"),
      (.args, .list [c0, mk .Constant [(.value, .const (.str filename)), (.kind, .none)]]), (.keywords, .list [])] :=
    ofVal_inj (h4.trans rfl)
  subst h5
  refine ⟨code_call (code_attrCode _) ?_ (by simp), _, _, _, _, rfl⟩
  intro x hx
  simp only [List.mem_cons, List.not_mem_nil, or_false] at hx
  rcases hx with rfl | rfl
  · exact h3
  · exact code_const _

theorem Compiled.final {L : Lib σ} {filename : String} {w0 : W σ} {n : Nat} {d c : Val} (h : Compiled L filename w0 d c)
    (hd : Ready E w n d) (hm : ∀ i, isbound w "mcpyrate" = some i → (E.macros i).isName = false) :
    Final E w c ∧ Ready E w 0 c := by
  obtain ⟨hc, l, as, ks, a, rfl⟩ := h.code hd
  refine ⟨⟨rfl, hc.clean hm, ?_⟩, hc.ready⟩
  rintro ⟨k, as, id, hk, -⟩
  cases hk with
  | plain h => cases h
  | bracket h => cases h
  | brackets h => cases h
  | parens _ hv hvk => cases hv; cases hvk

end
end Mcpyrate.QuoteOps
