import Verif.Spec.FixCtxShared
import Verif.Lemmas.FixCtx
/-
The invariant of `fix_ctx` on shared graphs: a ghost map says of every finished object of which
original object it is the fixed version, and for which context.
-/
namespace Mcpyrate.FixCtx
open Py

/-- Two lists related item by item. -/
inductive All2 {α β : Type} (R : α → β → Prop) : List α → List β → Prop
  | nil : All2 R [] []
  | cons {x y xs ys} : R x y → All2 R xs ys → All2 R (x :: xs) (y :: ys)

namespace All2
variable {α β : Type} {R S : α → β → Prop}

theorem imp_mem {xs : List α} {ys : List β} (h : All2 R xs ys)
    (hi : ∀ x ∈ xs, ∀ y ∈ ys, R x y → S x y) : All2 S xs ys := by
  induction h with
  | nil => exact .nil
  | cons h _ ih =>
    exact .cons (hi _ (List.mem_cons_self ..) _ (List.mem_cons_self ..) h)
      (ih fun x hx y hy => hi x (List.mem_cons_of_mem _ hx) y (List.mem_cons_of_mem _ hy))

theorem length {xs : List α} {ys : List β} (h : All2 R xs ys) : xs.length = ys.length := by
  induction h with
  | nil => rfl
  | cons _ _ ih => simp [ih]

theorem append {xs xs' : List α} {ys ys' : List β} (h : All2 R xs ys) (h' : All2 R xs' ys') :
    All2 R (xs ++ xs') (ys ++ ys') := by
  induction h with
  | nil => exact h'
  | cons h _ ih => exact .cons h ih

theorem split {xs xs' : List α} {ys ys' : List β} (h : All2 R (xs ++ xs') (ys ++ ys'))
    (hl : xs.length = ys.length) : All2 R xs ys ∧ All2 R xs' ys' := by
  induction xs generalizing ys with
  | nil =>
    cases ys with
    | nil => exact ⟨.nil, h⟩
    | cons => simp at hl
  | cons x xs ih =>
    cases ys with
    | nil => simp at hl
    | cons y ys =>
      cases h with
      | cons h hr =>
        obtain ⟨h1, h2⟩ := ih hr (by simpa using hl)
        exact ⟨.cons h h1, h2⟩

theorem right {xs : List α} {ys : List β} (h : All2 R xs ys) {y : β} (hy : y ∈ ys) :
    ∃ x ∈ xs, R x y := by
  induction h with
  | nil => cases hy
  | cons h _ ih =>
    rcases List.mem_cons.1 hy with rfl | hy
    · exact ⟨_, List.mem_cons_self .., h⟩
    · obtain ⟨x, hx, h⟩ := ih hy
      exact ⟨x, List.mem_cons_of_mem _ hx, h⟩

theorem refl {R : α → α → Prop} {xs : List α} (h : ∀ x ∈ xs, R x x) : All2 R xs xs := by
  induction xs with
  | nil => exact .nil
  | cons x xs ih =>
    exact .cons (h x (List.mem_cons_self ..)) (ih fun y hy => h y (List.mem_cons_of_mem _ hy))

end All2

/-- What is known of an object: the fixed version of the node at `p` for context `d`, or a new ctx
object. -/
inductive Mark
  | done (p : Nat) (d : K)
  | ctx (d : K)
  deriving DecidableEq

abbrev Ghost := Nat → Option Mark

section
variable (H : List Obj)

/-- The positions with the contexts that the code uses. -/
inductive PosS (root : Nat) : K → Nat → Prop
  | root : PosS root .Load root
  | child {d p f a c fs} : PosS root d p → Edge H p f a → H[p]? = some (.node c fs) →
      PosS root (childState c d f) a

/-- The object at `a` is the node at `a0`, untouched, or a fixed version of it. -/
def Origin (G : Ghost) (a a0 : Nat) : Prop :=
  IsNode H a0 ∧ ((G a = none ∧ a = a0) ∨ ∃ d, G a = some (.done a0 d))

def Done (G : Ghost) (k : K) (a a0 : Nat) : Prop := IsNode H a0 ∧ G a = some (.done a0 k)

inductive Item (R : Nat → Nat → Prop) : HV → HV → Prop
  | const (c) : Item R (.const c) (.const c)
  | ref {a a0} : R a a0 → Item R (.ref a0) (.ref a)

inductive Sim (heap : List Obj) (R : Nat → Nat → Prop) : HV → HV → Prop
  | const (c) : Sim heap R (.const c) (.const c)
  | node {a a0} : IsNode H a0 → R a a0 → Sim heap R (.ref a0) (.ref a)
  | list {l xs0 xs} : H[l]? = some (.list xs0) → heap[l]? = some (.list xs) →
      All2 (Item R) xs0 xs → Sim heap R (.ref l) (.ref l)

/-- Field `q` of an object is field `q0` of its origin. -/
def FSim (heap : List Obj) (G : Ghost) (c : Cls) (d : K) (R : K → Nat → Nat → Prop)
    (q0 q : F × HV) : Prop :=
  q.1 = q0.1 ∧ if c.hasCtx = true ∧ q0.1 = .ctx then ∃ a, q.2 = .ref a ∧ G a = some (.ctx d)
    else Sim H heap (R (childState c d q0.1)) q0.2 q.2

/-- The fields, with a `ctx` in any case if the class has one. -/
def withCtx (c : Cls) (fs : List (F × HV)) : List (F × HV) :=
  if c.hasCtx = true ∧ fs.lookup .ctx = none then fs ++ [(.ctx, .const .none)] else fs

/-- The object at `o` is the node at `p` fixed for context `d`. -/
def Looks (heap : List Obj) (G : Ghost) (o p : Nat) (d : K) : Prop :=
  ∃ c fs0 fs, H[p]? = some (.node c fs0) ∧ heap[o]? = some (.node c fs) ∧
    All2 (FSim H heap G c d (Done H G)) (withCtx c fs0) fs

structure Inv (root : Nat) (G : Ghost) (σ : St) : Prop where
  looks : ∀ o p d, G o = some (.done p d) → Looks H σ.heap G o p d
  ctx : ∀ a d, G a = some (.ctx d) → σ.heap[a]? = some (.node (.py d) []) ∧ H.length ≤ a
  pos : ∀ o p d, G o = some (.done p d) → PosS H root d p
  orig : ∀ o p d, G o = some (.done p d) → p = o ∨ H.length ≤ o
  seen : ∀ o p d c fs, G o = some (.done p d) → H[p]? = some (.node c fs) → c.hasCtx = true →
    o ∈ σ.seen
  back : ∀ o p d, G o = some (.done p d) → ∃ d', G p = some (.done p d')
  lists : ∀ (l : Nat) (xs : List HV), H[l]? = some (.list xs) → ∃ ys, σ.heap[l]? = some (.list ys)
  nodes : ∀ (o : Nat) (c : Cls) (fs : List (F × HV)), H[o]? = some (.node c fs) → ∃ fs', σ.heap[o]? = some (.node c fs')
  len : H.length ≤ σ.heap.length
  fresh : ∀ o, σ.heap.length ≤ o → G o = none

/-- `q` is `p` or below it. -/
inductive Desc (p : Nat) : Nat → Prop
  | refl : Desc p p
  | step {q f a} : Desc p q → Edge H q f a → Desc p a

/-- What a part of the walk may change.  `D`: the original nodes that it visits; `X`, `Y`: the object
that is being worked on, and its origin. -/
structure Frame (D X Y : Nat → Prop) (G : Ghost) (σ : St) (G' : Ghost) (σ' : St) : Prop where
  mono : ∀ o x, G o = some x → G' o = some x
  unmarked : ∀ o, o < σ.heap.length → G o = none → ¬ D o → G' o = none
  len : σ.heap.length ≤ σ'.heap.length
  node : ∀ o c fs, ¬ X o → σ.heap[o]? = some (.node c fs) → G' o = none → σ'.heap[o]? = σ.heap[o]?
  other : ∀ o q d, ¬ X o → G o = some (.done q d) → ¬ D q → σ'.heap[o]? = σ.heap[o]?
  list : ∀ q f l xs, ¬ Y q → Holds H q f (.ref l) → H[l]? = some (.list xs) →
    (G' q = none ∨ ¬ D q) → σ'.heap[l]? = σ.heap[l]?
  seen : ∀ o, o ∈ σ'.seen → ¬ X o → o ∈ σ.seen ∨ G' o ≠ none
  grow : ∀ o, o ∈ σ.seen → o ∈ σ'.seen

/-- Below `p`, what is not finished is untouched. -/
def Fresh (G : Ghost) (σ : St) (D : Nat → Prop) : Prop :=
  ∀ q, D q → G q = none → σ.heap[q]? = H[q]? ∧ q ∉ σ.seen ∧
    ∀ f l xs, Holds H q f (.ref l) → H[l]? = some (.list xs) → σ.heap[l]? = some (.list xs)

/-- The conditions, in terms of the contexts that the code uses. -/
structure Share (cs : Bool) (root : Nat) : Prop where
  exclusive : ∀ p f a, Registered H p f → Edge H p f a → ∀ p' f', Edge H p' f' a → p' = p ∧ f' = f
  once : ∀ p f l xs, Registered H p f → Holds H p f (.ref l) → H[l]? = some (.list xs) →
    xs.Pairwise fun x y => ∀ a, x = .ref a → y ≠ .ref a
  contexts : ∀ o d d', PosS H root d o → PosS H root d' o → d = d' ∨
    (cs = true ∧ (∃ c fs, H[o]? = some (.node c fs) ∧ c.hasCtx = true) ∧
      ∀ f l xs, Holds H o f (.ref l) → H[l]? ≠ some (.list xs))

/-- `x` is registered on behalf of a node of rank above `n`. -/
def Key (rank : Nat → Nat) (G : Ghost) (x n : Nat) : Prop :=
  ∃ x0 p0 f0, Origin H G x x0 ∧ Registered H p0 f0 ∧ Edge H p0 f0 x0 ∧ n < rank p0

/-- The registered states: those in `P`, otherwise as in `ov`. -/
structure OverRel (P : Nat → K → Prop) (ov : Nat → Option K) (over : List (Nat × K)) : Prop where
  hit : ∀ x k, P x k → over.lookup x = some k
  miss : ∀ x, (∀ k, ¬ P x k) → over.lookup x = ov x

end

variable {H : List Obj} {rank : Nat → Nat} {root : Nat} {cs : Bool}

theorem OverRel.congr {P P' : Nat → K → Prop} {ov : Nat → Option K} {over : List (Nat × K)}
    (h : OverRel P ov over) (hi : ∀ x k, P' x k ↔ P x k) : OverRel P' ov over :=
  ⟨fun x k hp => h.hit x k ((hi x k).1 hp), fun x hp => h.miss x fun k hk => hp k ((hi x k).2 hk)⟩

theorem IsNode.lt {a : Nat} (h : IsNode H a) : a < H.length := by
  obtain ⟨c, fs, h⟩ := h
  exact (List.getElem?_eq_some_iff.1 h).1

theorem Holds.isNode {p : Nat} {f : F} {v : HV} (h : Holds H p f v) : IsNode H p :=
  let ⟨c, fs, h, _⟩ := h
  ⟨c, fs, h⟩

theorem Edge.left {p : Nat} {f : F} {a : Nat} (h : Edge H p f a) : IsNode H p := by
  cases h with
  | field h _ => exact h.isNode
  | item h _ _ => exact h.isNode

theorem Edge.right (hG : Graph H rank) {p : Nat} {f : F} {a : Nat} (h : Edge H p f a) :
    IsNode H a := by
  cases h with
  | field _ h => exact h
  | item h hl hx => exact hG.items _ _ _ _ _ h hl hx

theorem Desc.trans {p q r : Nat} (h : Desc H p q) (h' : Desc H q r) : Desc H p r := by
  induction h' with
  | refl => exact h
  | step _ he ih => exact .step ih he

theorem Desc.rank_lt (hG : Graph H rank) {p q : Nat} (h : Desc H p q) : q = p ∨ rank q < rank p := by
  induction h with
  | refl => exact .inl rfl
  | step _ he ih =>
    have := hG.acyclic _ _ _ he
    rcases ih with rfl | ih
    · exact .inr this
    · exact .inr (Nat.lt_trans this ih)

theorem Desc.isNode (hG : Graph H rank) {p q : Nat} (h : Desc H p q) (hp : IsNode H p) :
    IsNode H q := by
  cases h with
  | refl => exact hp
  | step _ he => exact he.right hG

theorem isCtx_posS {d : K} {o : Nat} (h : PosS H root d o) : IsCtx d := by
  induction h with
  | root => exact .inl rfl
  | child _ _ _ ih => exact isCtx_child _ _ _ ih

theorem Sim.of {heap heap' : List Obj} {R R' : Nat → Nat → Prop} {v0 v : HV}
    (h : Sim H heap R v0 v) (hR : ∀ a a0, R a a0 → R' a a0)
    (hl : ∀ l xs, v0 = .ref l → H[l]? = some (.list xs) → heap'[l]? = heap[l]?) :
    Sim H heap' R' v0 v := by
  cases h with
  | const => exact .const _
  | node hn h => exact .node hn (hR _ _ h)
  | list h0 h1 h2 =>
    refine .list h0 ((hl _ _ rfl h0).trans h1) (h2.imp_mem fun x _ y _ h => ?_)
    cases h with
    | const => exact .const _
    | ref h => exact .ref (hR _ _ h)

theorem FSim.of {heap heap' : List Obj} {G G' : Ghost} {c : Cls} {d : K}
    {R R' : K → Nat → Nat → Prop} {q0 q : F × HV} (h : FSim H heap G c d R q0 q)
    (hc : ∀ a, G a = some (.ctx d) → G' a = some (.ctx d)) (hR : ∀ k a a0, R k a a0 → R' k a a0)
    (hl : ∀ l xs, ¬ (c.hasCtx = true ∧ q0.1 = .ctx) → q0.2 = .ref l → H[l]? = some (.list xs) →
      heap'[l]? = heap[l]?) :
    FSim H heap' G' c d R' q0 q := by
  refine ⟨h.1, ?_⟩
  have h2 := h.2
  split
  · rename_i hx
    rw [if_pos hx] at h2
    obtain ⟨a, h3, h4⟩ := h2
    exact ⟨a, h3, hc a h4⟩
  · rename_i hx
    rw [if_neg hx] at h2
    exact h2.of (hR _) fun l xs => hl l xs hx

theorem mem_withCtx {c : Cls} {fs : List (F × HV)} {q : F × HV} (h : q ∈ withCtx c fs)
    (hx : ¬ (c.hasCtx = true ∧ q.1 = .ctx)) : q ∈ fs := by
  unfold withCtx at h
  split at h
  · rename_i hc
    rcases List.mem_append.1 h with h | h
    · exact h
    · rw [List.mem_singleton] at h
      subst h
      exact absurd ⟨hc.1, rfl⟩ hx
  · exact h

/-- A fixed version stays one if its object and its lists are left alone. -/
theorem Looks.of {heap heap' : List Obj} {G G' : Ghost} {o p : Nat} {d : K}
    (h : Looks H heap G o p d) (hg : ∀ o x, G o = some x → G' o = some x)
    (ho : heap'[o]? = heap[o]?)
    (hl : ∀ f l xs, Holds H p f (.ref l) → H[l]? = some (.list xs) → heap'[l]? = heap[l]?) :
    Looks H heap' G' o p d := by
  obtain ⟨c, fs0, fs, h0, h1, h2⟩ := h
  refine ⟨c, fs0, fs, h0, ho.trans h1, h2.imp_mem fun x hx y _ h => ?_⟩
  refine h.of (fun a => hg a _) (fun k a a0 h => ⟨h.1, hg _ _ h.2⟩) fun l xs hn e hxs => ?_
  exact hl x.1 l xs ⟨c, fs0, h0, e ▸ mem_withCtx hx hn, hn⟩ hxs

theorem Origin.node {G : Ghost} {σ : St} (hI : Inv H root G σ) {a a0 : Nat} (h : Origin H G a a0) :
    ∃ c fs0 fs, H[a0]? = some (.node c fs0) ∧ σ.heap[a]? = some (.node c fs) := by
  obtain ⟨⟨c, fs0, h0⟩, ⟨_, rfl⟩ | ⟨d, hd⟩⟩ := h
  · obtain ⟨fs, h⟩ := hI.nodes _ _ _ h0
    exact ⟨c, fs0, fs, h0, h⟩
  · obtain ⟨c, fs0, fs, h0, h1, _⟩ := hI.looks _ _ _ hd
    exact ⟨c, fs0, fs, h0, h1⟩

theorem Origin.det {G : Ghost} {a a0 a1 : Nat} (h : Origin H G a a0) (h' : Origin H G a a1) :
    a0 = a1 := by
  obtain ⟨_, ⟨h, rfl⟩ | ⟨d, h⟩⟩ := h <;> obtain ⟨_, ⟨h', rfl⟩ | ⟨d', h'⟩⟩ := h'
  · rfl
  · rw [h] at h'; cases h'
  · rw [h] at h'; cases h'
  · rw [h] at h'; cases h'; rfl

/-- An original node. -/
theorem origin_self {G : Ghost} {σ : St} (hI : Inv H root G σ) {a : Nat} (h : IsNode H a) :
    Origin H G a a := by
  refine ⟨h, ?_⟩
  cases hg : G a with
  | none => exact .inl ⟨rfl, rfl⟩
  | some m =>
    cases m with
    | done p d =>
      rcases hI.orig _ _ _ hg with rfl | hl
      · exact .inr ⟨d, rfl⟩
      · exact absurd h.lt (Nat.not_lt.2 hl)
    | ctx d => exact absurd h.lt (Nat.not_lt.2 (hI.ctx _ _ hg).2)

theorem Origin.mono {G G' : Ghost} {σ' : St} (hI : Inv H root G' σ') {a a0 : Nat}
    (h : Origin H G a a0) (hg : ∀ o x, G o = some x → G' o = some x) : Origin H G' a a0 := by
  obtain ⟨hn, ⟨h, rfl⟩ | ⟨d, h⟩⟩ := h
  · exact origin_self hI hn
  · exact ⟨hn, .inr ⟨d, hg _ _ h⟩⟩

theorem Done.origin {G : Ghost} {k : K} {a a0 : Nat} (h : Done H G k a a0) : Origin H G a a0 :=
  ⟨h.1, .inr ⟨k, h.2⟩⟩

theorem Key.mono {G G' : Ghost} {σ' : St} (hI : Inv H root G' σ') {x n : Nat}
    (h : Key H rank G x n) (hg : ∀ o x, G o = some x → G' o = some x) : Key H rank G' x n :=
  let ⟨x0, p0, f0, h1, h2⟩ := h
  ⟨x0, p0, f0, h1.mono hI hg, h2⟩

namespace Frame
variable {D X Y D' X' Y' : Nat → Prop} {G G1 G2 : Ghost} {σ σ1 σ2 : St}

theorem weaken (h : Frame H D X Y G σ G1 σ1) (hD : ∀ o, D o → D' o) (hX : ∀ o, X o → X' o)
    (hY : ∀ o, Y o → Y' o) : Frame H D' X' Y' G σ G1 σ1 where
  mono := h.mono
  unmarked o hl hg hd := h.unmarked o hl hg fun e => hd (hD o e)
  len := h.len
  node o c fs hx := h.node o c fs fun e => hx (hX o e)
  other o q d hx hg hd := h.other o q d (fun e => hx (hX o e)) hg fun e => hd (hD q e)
  list q f l xs hy h1 h2 h3 := h.list q f l xs (fun e => hy (hY q e)) h1 h2
    (h3.imp id fun h3 e => h3 (hD q e))
  seen o ho hx := h.seen o ho fun e => hx (hX o e)
  grow := h.grow

theorem trans (h : Frame H D X Y G σ G1 σ1) (h' : Frame H D X Y G1 σ1 G2 σ2) :
    Frame H D X Y G σ G2 σ2 := by
  have back : ∀ o, G2 o = none → G1 o = none := fun o h2 => by
    cases h1 : G1 o with
    | none => rfl
    | some m => rw [h'.mono o m h1] at h2; cases h2
  exact {
    mono := fun o x hx => h'.mono o x (h.mono o x hx)
    unmarked := fun o hl hg hd => h'.unmarked o (Nat.lt_of_lt_of_le hl h.len) (h.unmarked o hl hg hd) hd
    len := Nat.le_trans h.len h'.len
    node := fun o c fs hx ho hg => by
      have e := h.node o c fs hx ho (back o hg)
      rw [h'.node o c fs hx (e.trans ho) hg, e]
    other := fun o q d hx hg hd => by
      rw [h'.other o q d hx (h.mono _ _ hg) hd, h.other o q d hx hg hd]
    list := fun q f l xs hy h1 h2 h3 => by
      rw [h'.list q f l xs hy h1 h2 h3, h.list q f l xs hy h1 h2 (h3.imp (back q) id)]
    seen := fun o ho hx => by
      rcases h'.seen o ho hx with h1 | h1
      · rcases h.seen o h1 hx with h2 | h2
        · exact .inl h2
        · cases hg : G1 o with
          | none => exact absurd hg h2
          | some m => exact .inr fun e => by rw [h'.mono o m hg] at e; cases e
      · exact .inr h1
    grow := fun o ho => h'.grow o (h.grow o ho) }

theorem refl : Frame H D X Y G σ G σ where
  mono _ _ h := h
  unmarked _ _ h _ := h
  len := Nat.le_refl _
  node _ _ _ _ _ _ := rfl
  other _ _ _ _ _ _ := rfl
  list _ _ _ _ _ _ _ _ := rfl
  seen _ h _ := .inl h
  grow _ h := h

end Frame

/-- What is untouched stays so. -/
theorem Fresh.frame {G G' : Ghost} {σ σ' : St} {D D' : Nat → Prop} (h : Fresh H G σ D)
    (hD : ∀ q, D q → IsNode H q)
    (hF : Frame H D' (fun _ => False) (fun _ => False) G σ G' σ') : Fresh H G' σ' D := by
  intro q hq hg
  have hg0 : G q = none := by
    cases h1 : G q with
    | none => rfl
    | some m => rw [hF.mono q m h1] at hg; cases hg
  obtain ⟨h1, h2, h3⟩ := h q hq hg0
  obtain ⟨c, fs, hn⟩ := hD q hq
  refine ⟨(hF.node q c fs id (h1.trans hn) hg).trans h1, fun hs => ?_, fun f l xs hf hl => ?_⟩
  · rcases hF.seen q hs id with h | h
    · exact h2 h
    · exact h hg
  · exact (hF.list q f l xs id hf hl (.inl hg)).trans (h3 f l xs hf hl)

theorem childState_registered {c : Cls} {f : F} (h : f ∈ registered c) (d : K) :
    childState c .Load f = childState c d f := by
  cases c with
  | marker n => simp [registered] at h
  | py k =>
    cases k <;> first
      | (exact absurd h List.not_mem_nil)
      | (cases f <;> first | rfl | exact absurd h (by decide))

theorem childState_other {c : Cls} {f : F} (h : f ∉ registered c) (d : K) : childState c d f = d := by
  cases c with
  | marker n => rfl
  | py k => cases k <;> first | rfl | (cases f <;> first | rfl | (exact absurd (by decide) h))

theorem lookup_filter_ne (over : List (Nat × K)) (r x : Nat) :
    (over.filter (·.1 ≠ r)).lookup x = if x = r then none else over.lookup x := by
  induction over with
  | nil => simp
  | cons q over ih =>
    obtain ⟨a, k⟩ := q
    by_cases ha : a = r
    · subst ha
      rw [List.filter_cons_of_neg (by simp), ih, List.lookup_cons]
      by_cases hx : x = a
      · simp [hx]
      · have : (x == a) = false := by simpa using hx
        simp [hx, this]
    · rw [List.filter_cons_of_pos (by simpa using ha), List.lookup_cons, List.lookup_cons, ih]
      by_cases hx : x = a
      · subst hx; simp [ha]
      · have : (x == a) = false := by simpa using hx
        simp [this]

end Mcpyrate.FixCtx
