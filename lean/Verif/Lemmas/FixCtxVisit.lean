import Verif.Lemmas.FixCtxLoop
/-
`fix_ctx` on shared graphs: `_fix_one`, and the whole visit of a node.
-/
namespace Mcpyrate.FixCtx
open Py

variable {H : List Obj} {rank : Nat → Nat} {root : Nat} {cs : Bool}

/-- Field `q` is field `q0` of the origin; nothing is said of a `ctx`. -/
def Raw (H heap : List Obj) (c : Cls) (d : K) (R : K → Nat → Nat → Prop) (q0 q : F × HV) : Prop :=
  q.1 = q0.1 ∧ (¬ (c.hasCtx = true ∧ q0.1 = .ctx) →
    Sim H heap (R (childState c d q0.1)) q0.2 q.2)

theorem FSim.raw {heap : List Obj} {G : Ghost} {c : Cls} {d : K} {R : K → Nat → Nat → Prop}
    {q0 q : F × HV} (h : FSim H heap G c d R q0 q) : Raw H heap c d R q0 q :=
  ⟨h.1, fun hn => by have := h.2; rwa [if_neg hn] at this⟩

theorem Raw.of {heap heap' : List Obj} {c : Cls} {d : K} {R R' : K → Nat → Nat → Prop}
    {q0 q : F × HV} (h : Raw H heap c d R q0 q) (hR : ∀ k a a0, R k a a0 → R' k a a0)
    (hl : ∀ (l : Nat) (xs : List HV), H[l]? = some (.list xs) → heap'[l]? = heap[l]?) :
    Raw H heap' c d R' q0 q :=
  ⟨h.1, fun hn => (h.2 hn).of (hR _) fun l xs _ => hl l xs⟩

theorem All2.map_right {α β γ : Type} {R : α → β → Prop} {S : α → γ → Prop} {g : β → γ}
    {xs : List α} {ys : List β} (h : All2 R xs ys) (hg : ∀ x y, R x y → S x (g y)) :
    All2 S xs (ys.map g) := by
  induction h with
  | nil => exact .nil
  | cons h _ ih => exact .cons (hg _ _ h) ih

theorem All2.lookup_isSome {R : F × HV → F × HV → Prop} {xs ys : List (F × HV)} (h : All2 R xs ys)
    (hk : ∀ x y, R x y → y.1 = x.1) (f : F) : (ys.lookup f).isSome = (xs.lookup f).isSome := by
  induction h with
  | nil => rfl
  | @cons x y _ _ h _ ih =>
    obtain ⟨g, v⟩ := x
    obtain ⟨g', v'⟩ := y
    have := hk _ _ h
    dsimp only at this
    subst this
    rw [List.lookup_cons, List.lookup_cons]
    split
    · rfl
    · exact ih

theorem lookup_append_ctx (fs : List (F × HV)) (v : HV) :
    ((fs ++ [(F.ctx, v)]).lookup .ctx).isSome = true := by
  induction fs with
  | nil => rfl
  | cons q fs ih =>
    rw [List.cons_append, List.lookup_cons]
    split
    · rfl
    · exact ih

/-- `tree.ctx = self.state.ctxclass()`. -/
def setCtx (fs : List (F × HV)) (a : Nat) : List (F × HV) :=
  if (fs.lookup .ctx).isSome
    then fs.map fun (g, v) => if g = .ctx then (g, .ref a) else (g, v)
    else fs ++ [(.ctx, .ref a)]

theorem setCtx_rel {heap : List Obj} {G : Ghost} {c : Cls} {d : K} {R : K → Nat → Nat → Prop}
    {fs0 L fs : List (F × HV)} {a : Nat} (hL : L = fs0 ∨ L = withCtx c fs0)
    (h : All2 (Raw H heap c d R) L fs) (hc : c.hasCtx = true) (ha : G a = some (.ctx d)) :
    All2 (FSim H heap G c d R) (withCtx c fs0) (setCtx fs a) := by
  have hk := h.lookup_isSome (fun _ _ h => h.1) .ctx
  unfold setCtx
  split
  · rename_i hs
    rw [hs] at hk
    have : withCtx c fs0 = L := by
      rcases hL with rfl | rfl
      · unfold withCtx
        rw [if_neg]
        rintro ⟨_, e⟩
        rw [e] at hk
        cases hk
      · rfl
    rw [this]
    refine h.map_right fun q0 q hq => ?_
    obtain ⟨g0, v0⟩ := q0
    obtain ⟨g, v⟩ := q
    have e : g = g0 := hq.1
    subst e
    by_cases hg : g = .ctx
    · refine ⟨by simp [hg], ?_⟩
      dsimp only
      rw [if_pos ⟨hc, hg⟩, if_pos hg]
      exact ⟨a, rfl, ha⟩
    · refine ⟨by simp [hg], ?_⟩
      dsimp only
      rw [if_neg fun h => hg h.2, if_neg hg]
      exact hq.2 fun h => hg h.2
  · rename_i hs
    have hnone : L.lookup .ctx = none := by
      cases e : L.lookup .ctx with
      | none => rfl
      | some v => rw [e] at hk; exact absurd hk hs
    have hL2 : L = fs0 := by
      rcases hL with e | e
      · exact e
      · unfold withCtx at e
        split at e
        · have := lookup_append_ctx fs0 (.const .none)
          rw [← e, hnone] at this
          cases this
        · exact e
    subst hL2
    have : withCtx c L = L ++ [(.ctx, .const .none)] := by
      unfold withCtx
      rw [if_pos ⟨hc, hnone⟩]
    rw [this]
    refine All2.append (h.imp_mem fun q0 hq0 q _ hq => ?_) (.cons ⟨rfl, ?_⟩ .nil)
    · have hne : q0.1 ≠ .ctx := fun e => by
        have : ∀ (xs : List (F × HV)), q0 ∈ xs → xs.lookup .ctx ≠ none := fun xs => by
          induction xs with
          | nil => exact fun h => by cases h
          | cons y xs ih =>
            intro hm
            obtain ⟨g, v⟩ := y
            rw [List.lookup_cons]
            rcases List.mem_cons.1 hm with e' | hm
            · rw [← e, e']; simp
            · split
              · simp
              · exact ih hm
        exact this L hq0 hnone
      refine ⟨hq.1, ?_⟩
      rw [if_neg fun h => hne h.2]
      exact hq.2 fun h => hne h.2
    · dsimp only
      rw [if_pos ⟨hc, rfl⟩]
      exact ⟨a, rfl, ha⟩

def mark (G : Ghost) (a : Nat) (m : Mark) : Ghost := fun o => if o = a then some m else G o

/-- A new object that nothing is known of. -/
theorem Inv.append {G : Ghost} {σ : St} (hI : Inv H root G σ) (o : Obj) :
    Inv H root G { σ with heap := σ.heap ++ [o] } := by
  have hap : ∀ (i : Nat) (x : Obj), σ.heap[i]? = some x → (σ.heap ++ [o])[i]? = some x := fun i x h =>
    (List.getElem?_append_left (List.getElem?_eq_some_iff.1 h).1).trans h
  have hap' : ∀ i, i < H.length → (σ.heap ++ [o])[i]? = σ.heap[i]? := fun i h =>
    List.getElem?_append_left (Nat.lt_of_lt_of_le h hI.len)
  refine ⟨fun o' p d hg => ?_, fun a d hg => ⟨hap _ _ (hI.ctx a d hg).1, (hI.ctx a d hg).2⟩, hI.pos,
    hI.orig, hI.seen, hI.back, ?_, ?_, ?_, ?_⟩
  · have hL := hI.looks o' p d hg
    refine hL.of (fun _ _ h => h) ?_ fun f l xs _ hl => hap' l (List.getElem?_eq_some_iff.1 hl).1
    obtain ⟨_, _, _, _, h1, _⟩ := hL
    exact (hap _ _ h1).trans h1.symm
  · exact fun l xs hl => let ⟨ys, h⟩ := hI.lists l xs hl; ⟨ys, hap _ _ h⟩
  · exact fun l c fs hl => let ⟨ys, h⟩ := hI.nodes l c fs hl; ⟨ys, hap _ _ h⟩
  · show H.length ≤ (σ.heap ++ [o]).length
    rw [List.length_append]
    exact Nat.le_trans hI.len (Nat.le_add_right _ _)
  · intro i hi
    have hi : (σ.heap ++ [o]).length ≤ i := hi
    rw [List.length_append] at hi
    exact hI.fresh i (Nat.le_trans (Nat.le_add_right _ _) hi)

theorem Frame.append {D X Y : Nat → Prop} {G : Ghost} {σ : St} (hI : Inv H root G σ) (o : Obj) :
    Frame H D X Y G σ G { σ with heap := σ.heap ++ [o] } where
  mono _ _ h := h
  unmarked _ _ h _ := h
  len := by simp
  node i _ _ _ h _ := List.getElem?_append_left (List.getElem?_eq_some_iff.1 h).1
  other i q d _ hg _ := by
    obtain ⟨_, _, _, _, h1, _⟩ := hI.looks i q d hg
    exact List.getElem?_append_left (List.getElem?_eq_some_iff.1 h1).1
  list q f l xs _ _ hl _ :=
    List.getElem?_append_left (Nat.lt_of_lt_of_le (List.getElem?_eq_some_iff.1 hl).1 hI.len)
  seen _ h _ := .inl h
  grow _ h := h

/-- A new ctx object. -/
theorem Inv.alloc {G : Ghost} {σ : St} (hI : Inv H root G σ) (d : K) :
    Inv H root (mark G σ.heap.length (.ctx d)) { σ with heap := σ.heap ++ [.node (.py d) []] } := by
  have hA := hI.append (.node (.py d) [])
  have hfree : G σ.heap.length = none := hI.fresh _ (Nat.le_refl _)
  have hm : ∀ o x, G o = some x → mark G σ.heap.length (.ctx d) o = some x := fun o x h => by
    unfold mark
    rw [if_neg]
    · exact h
    · intro e; rw [e, hfree] at h; cases h
  have hmd : ∀ o p d', mark G σ.heap.length (.ctx d) o = some (.done p d') → G o = some (.done p d') :=
    fun o p d' h => by
      unfold mark at h
      split at h
      · cases h
      · exact h
  refine ⟨fun o p d' hg => ?_, fun a d' hg => ?_, fun o p d' hg => hI.pos o p d' (hmd _ _ _ hg),
    fun o p d' hg => hI.orig o p d' (hmd _ _ _ hg),
    fun o p d' c fs hg => hI.seen o p d' c fs (hmd _ _ _ hg),
    fun o p d' hg => let ⟨d'', h⟩ := hI.back o p d' (hmd _ _ _ hg); ⟨d'', hm _ _ h⟩,
    hA.lists, hA.nodes, hA.len, fun o ho => ?_⟩
  · exact (hA.looks o p d' (hmd _ _ _ hg)).of hm rfl fun _ _ _ _ _ => rfl
  · unfold mark at hg
    split at hg
    · rename_i e
      cases hg
      refine ⟨?_, e ▸ hI.len⟩
      show (σ.heap ++ [_])[a]? = _
      rw [e, List.getElem?_append_right (Nat.le_refl _), Nat.sub_self]
      rfl
    · exact hA.ctx a d' hg
  · have ho : (σ.heap ++ [Obj.node (.py d) []]).length ≤ o := ho
    rw [List.length_append] at ho
    unfold mark
    rw [if_neg]
    · exact hI.fresh o (Nat.le_trans (Nat.le_add_right _ _) ho)
    · intro e
      rw [e] at ho
      exact absurd ho (by simp)

theorem Frame.alloc {D X Y : Nat → Prop} {G : Ghost} {σ : St} (hI : Inv H root G σ) (d : K) :
    Frame H D X Y G σ (mark G σ.heap.length (.ctx d))
      { σ with heap := σ.heap ++ [.node (.py d) []] } := by
  have hA : Frame H D X Y G σ G { σ with heap := σ.heap ++ [.node (.py d) []] } := .append hI _
  have hfree : G σ.heap.length = none := hI.fresh _ (Nat.le_refl _)
  have hm : ∀ o x, G o = some x → mark G σ.heap.length (.ctx d) o = some x := fun o x h => by
    unfold mark
    rw [if_neg]
    · exact h
    · intro e; rw [e, hfree] at h; cases h
  have hm' : ∀ o, mark G σ.heap.length (.ctx d) o = none → G o = none := fun o h => by
    unfold mark at h
    split at h
    · cases h
    · exact h
  refine ⟨hm, fun o ho hg _ => ?_, hA.len, fun o c fs hx ho hg => hA.node o c fs hx ho (hm' o hg),
    hA.other, fun q f l xs hy hq hl hd => hA.list q f l xs hy hq hl (hd.imp (hm' q) id),
    fun o ho hx => (hA.seen o ho hx).imp id fun hg e => hg (hm' o e), hA.grow⟩
  unfold mark
  rw [if_neg (Nat.ne_of_lt ho)]
  exact hg

theorem Inv.see {G : Ghost} {σ : St} (hI : Inv H root G σ) (r : Nat) :
    Inv H root G { σ with seen := r :: σ.seen } :=
  ⟨hI.looks, hI.ctx, hI.pos, hI.orig,
    fun o p d c fs h h' h'' => List.mem_cons_of_mem _ (hI.seen o p d c fs h h' h''), hI.back,
    hI.lists, hI.nodes, hI.len, hI.fresh⟩

theorem Frame.see {D Y : Nat → Prop} {G : Ghost} {σ : St} (r : Nat) :
    Frame H D (· = r) Y G σ G { σ with seen := r :: σ.seen } where
  mono _ _ h := h
  unmarked _ _ h _ := h
  len := Nat.le_refl _
  node _ _ _ _ _ _ := rfl
  other _ _ _ _ _ _ := rfl
  list _ _ _ _ _ _ _ _ := rfl
  seen o h hx := by
    rcases List.mem_cons.1 h with e | h
    · exact absurd e hx
    · exact .inl h
  grow _ h := List.mem_cons_of_mem _ h

/-- `_fix_one` for a class with a `ctx`, once it is decided which object to go on with. -/
theorem fix_ok {p : Nat} {c : Cls} {fs0 L fs : List (F × HV)} {d : K} {G : Ghost} {σ : St} {r : Nat}
    (hp : H[p]? = some (.node c fs0)) (hI : Inv H root G σ) (hc : c.hasCtx = true)
    (hr : σ.heap[r]? = some (.node c fs)) (hG : G r = none ∨ G r = some (.done p d))
    (hL : L = fs0 ∨ L = withCtx c fs0)
    (hraw : All2 (Raw H σ.heap c d fun _ => Origin H G) L fs) :
    let a := σ.heap.length
    let fs1 := setCtx fs a
    let σ' : St := { σ with heap := (σ.heap ++ [Obj.node (.py d) []]).set r (Obj.node c fs1),
                            seen := r :: σ.seen }
    let G1 := mark G a (.ctx d)
    Inv H root G1 σ' ∧ Frame H (Below H p) (· = r) (· = p) G σ G1 σ' ∧
      σ'.heap[r]? = some (.node c fs1) ∧
      All2 (FSim H σ'.heap G1 c d fun _ => Origin H G1) (withCtx c fs0) fs1 ∧ G1 r = G r := by
  intro a fs1 σ' G1
  have hrl : r < σ.heap.length := (List.getElem?_eq_some_iff.1 hr).1
  have hG1r : G1 r = G r := if_neg (Nat.ne_of_lt hrl)
  have hG1a : G1 a = some (.ctx d) := if_pos rfl
  let σa : St := { σ with heap := σ.heap ++ [.node (.py d) []] }
  have hIa : Inv H root G1 σa := hI.alloc d
  have hFa : Frame H (Below H p) (· = r) (· = p) G σ G1 σa := .alloc hI d
  have hra : σa.heap[r]? = some (.node c fs) := (List.getElem?_append_left hrl).trans hr
  have hself : (σa.heap.set r (.node c fs1))[r]? = some (.node c fs1) :=
    List.getElem?_set_self (List.getElem?_eq_some_iff.1 hra).1
  have hlist : ∀ (l : Nat) (xs : List HV), H[l]? = some (.list xs) →
      (σa.heap.set r (.node c fs1))[l]? = σ.heap[l]? := fun l xs hl => by
    have hll : l < σ.heap.length := Nat.lt_of_lt_of_le (List.getElem?_eq_some_iff.1 hl).1 hI.len
    rw [List.getElem?_set_ne]
    · exact List.getElem?_append_left hll
    · intro e
      obtain ⟨ys, hy⟩ := hI.lists l xs hl
      rw [← e, hr] at hy
      cases hy
  have hIs : Inv H root G1 { σa with heap := σa.heap.set r (.node c fs1) } := by
    refine hIa.setNode hra (fun d' e => ?_) fun p' d' e => ?_
    · rw [hG1r] at e
      rcases hG with h | h <;> rw [h] at e <;> cases e
    · rw [hG1r] at e
      rcases hG with h | h
      · rw [h] at e; cases e
      · rw [h] at e
        cases e
        obtain ⟨c', gs0, gs, h0, h1, h2⟩ := hI.looks _ _ _ h
        rw [hp] at h0
        cases h0
        rw [hr] at h1
        cases h1
        refine ⟨c, fs0, fs1, hp, hself, setCtx_rel (.inr rfl) (h2.imp_mem fun x _ y _ h => ?_) hc hG1a⟩
        exact h.raw.of (fun _ _ _ h => ⟨h.1, hFa.mono _ _ h.2⟩) hlist
  refine ⟨hIs.see r, (hFa.trans (Frame.setNode hIa hra)).trans (.see r), hself, ?_, hG1r⟩
  exact setCtx_rel hL (hraw.imp_mem fun x _ y _ h =>
    h.of (fun _ _ _ h => h.mono hIs hFa.mono) hlist) hc hG1a

/-- `_fix_one`. -/
theorem start_ok (hG : Graph H rank) (hS : Share H cs root) {p : Nat} {c : Cls}
    {fs0 : List (F × HV)} {d : K} {G : Ghost} {σ : St} {r : Nat}
    (hp : H[p]? = some (.node c fs0)) (hpos : PosS H root d p) (hI : Inv H root G σ)
    (ho : Origin H G r p) (hfr : Fresh H G σ (Desc H p)) :
    ∃ fs r' fs1 σ' G1, σ.heap[r]? = some (.node c fs) ∧ fixOne cs d r c fs σ = (r', fs1, σ') ∧
      Inv H root G1 σ' ∧ Frame H (Below H p) (· = r') (· = p) G σ G1 σ' ∧
      σ'.heap[r']? = some (.node c fs1) ∧
      All2 (FSim H σ'.heap G1 c d fun _ => Origin H G1) (withCtx c fs0) fs1 ∧
      (G1 r' = none ∨ G1 r' = some (.done p d)) ∧
      (r' = p ∨ (∃ d', G p = some (.done p d')) ∧
        (H.length ≤ r' ∧ (σ.heap.length ≤ r' ∨ G r' = some (.done p d)))) ∧
      (c.hasCtx = true → r' ∈ σ'.seen) ∧ σ'.over = σ.over := by
  obtain ⟨fs, L, hr, hL, hraw, hst⟩ : ∃ fs L, σ.heap[r]? = some (.node c fs) ∧
      (L = fs0 ∨ L = withCtx c fs0) ∧ All2 (Raw H σ.heap c d fun _ => Origin H G) L fs ∧
      ((G r = none ∧ r = p ∧ r ∉ σ.seen) ∨ ∃ d0, G r = some (.done p d0)) := by
    obtain ⟨hn, ⟨hg, e⟩ | ⟨d0, hg⟩⟩ := ho
    · subst e
      obtain ⟨h1, h2, h3⟩ := hfr r .refl hg
      refine ⟨fs0, fs0, h1.trans hp, .inl rfl, .refl fun q hq => ⟨rfl, fun hx => ?_⟩, .inl ⟨hg, rfl, h2⟩⟩
      obtain ⟨f, v⟩ := q
      have hh : Holds H r f v := ⟨c, fs0, hp, hq, hx⟩
      cases v with
      | const => exact .const _
      | ref a =>
        obtain ⟨o, hao⟩ := hG.refs r f a hh
        cases o with
        | node c' fs' => exact .node ⟨c', fs', hao⟩ (origin_self hI ⟨c', fs', hao⟩)
        | list xs =>
          refine .list hao (h3 f a xs hh hao) (.refl fun x hx => ?_)
          cases x with
          | const => exact .const _
          | ref b => exact .ref (origin_self hI (hG.items r f a xs b hh hao hx))
    · obtain ⟨c', gs0, gs, h0, h1, h2⟩ := hI.looks _ _ _ hg
      rw [hp] at h0
      cases h0
      refine ⟨gs, withCtx c fs0, h1, .inr rfl, h2.imp_mem fun x _ y _ h => ⟨h.1, fun hx => ?_⟩,
        .inr ⟨d0, hg⟩⟩
      exact (h.raw.2 hx).of (fun _ _ h => h.origin) fun _ _ _ _ => rfl
  have hraw' : All2 (Raw H σ.heap c d fun _ => Origin H G) L fs := hraw
  by_cases hc : c.hasCtx = true
  · by_cases hcopy : cs = true ∧ r ∈ σ.seen
    · -- a copy
      obtain ⟨d0, hg⟩ : ∃ d0, G r = some (.done p d0) := by
        rcases hst with ⟨_, _, h⟩ | h
        · exact absurd hcopy.2 h
        · exact h
      let σc : St := { σ with heap := σ.heap ++ [.node c fs] }
      have hIc : Inv H root G σc := hI.append _
      have hrc : σc.heap[σ.heap.length]? = some (.node c fs) := by
        show (σ.heap ++ [_])[σ.heap.length]? = _
        rw [List.getElem?_append_right (Nat.le_refl _), Nat.sub_self]
        rfl
      have hfree : G σ.heap.length = none := hI.fresh _ (Nat.le_refl _)
      obtain ⟨e1, e2, e3, e4, e5⟩ := fix_ok hp hIc hc hrc (d := d) (.inl hfree) hL
        (hraw'.imp_mem fun x _ y _ h => h.of (fun _ _ _ h => h) fun l xs hl =>
          List.getElem?_append_left (Nat.lt_of_lt_of_le (List.getElem?_eq_some_iff.1 hl).1 hI.len))
      refine ⟨fs, σ.heap.length, _, _, _, hr, ?_, e1, (Frame.append hI _).trans e2, e3, e4,
        .inl (e5.trans hfree), .inr ⟨hI.back _ _ _ hg, hI.len, .inl (Nat.le_refl _)⟩,
        fun _ => List.mem_cons_self .., rfl⟩
      simp only [fixOne, hc, if_true, if_pos hcopy]
      rfl
    · -- in place
      have hgr : G r = none ∨ G r = some (.done p d) := by
        rcases hst with ⟨h, _⟩ | ⟨d0, h⟩
        · exact .inl h
        · have hs := hI.seen _ _ _ _ _ h hp hc
          rcases hS.contexts _ _ _ hpos (hI.pos _ _ _ h) with e | ⟨e, _⟩
          · exact .inr (e ▸ h)
          · exact absurd ⟨e, hs⟩ hcopy
      obtain ⟨e1, e2, e3, e4, e5⟩ := fix_ok hp hI hc hr (d := d) hgr hL hraw'
      refine ⟨fs, r, _, _, _, hr, ?_, e1, e2, e3, e4, e5 ▸ hgr, ?_, fun _ => List.mem_cons_self .., rfl⟩
      · simp only [fixOne, hc, if_true, if_neg hcopy]
        rfl
      · rcases hst with ⟨_, h, _⟩ | ⟨d0, h⟩
        · exact .inl h
        · rcases hI.orig _ _ _ h with e | e
          · exact .inl e.symm
          · refine .inr ⟨hI.back _ _ _ h, e, .inr ?_⟩
            rcases hgr with h' | h'
            · rw [h] at h'; cases h'
            · exact h'
  · have hgr : G r = none ∨ G r = some (.done p d) := by
      rcases hst with ⟨h, _⟩ | ⟨d0, h⟩
      · exact .inl h
      · rcases hS.contexts _ _ _ hpos (hI.pos _ _ _ h) with e | ⟨_, ⟨c', gs, e, e'⟩, _⟩
        · exact .inr (e ▸ h)
        · rw [hp] at e
          cases e
          exact absurd e' hc
    have hw : withCtx c fs0 = fs0 := if_neg fun h => hc h.1
    have hL' : L = withCtx c fs0 := by
      rcases hL with h | h
      · rw [h, hw]
      · exact h
    refine ⟨fs, r, fs, σ, G, hr, ?_, hI, .refl, hr, ?_, hgr, ?_, fun h => absurd h hc, rfl⟩
    · simp only [fixOne, hc, if_false, Bool.false_eq_true]
    · rw [← hL']
      refine hraw'.imp_mem fun x _ y _ h => ⟨h.1, ?_⟩
      rw [if_neg fun h => hc h.1]
      exact h.2 fun h => hc h.1
    · rcases hst with ⟨_, h, _⟩ | ⟨d0, h⟩
      · exact .inl h
      · rcases hI.orig _ _ _ h with e | e
        · exact .inl e.symm
        · refine .inr ⟨hI.back _ _ _ h, e, .inr ?_⟩
          rcases hgr with h' | h'
          · rw [h] at h'; cases h'
          · exact h'

theorem withCtx_nodup {c : Cls} {fs : List (F × HV)} (h : (fs.map (·.1)).Nodup) :
    ((withCtx c fs).map (·.1)).Nodup := by
  unfold withCtx
  split
  · rename_i hc
    rw [List.map_append, List.nodup_append]
    refine ⟨h, by simp, fun a ha b hb e => ?_⟩
    simp only [List.map_cons, List.map_nil, List.mem_singleton] at hb
    subst hb
    subst e
    obtain ⟨q, hq, e⟩ := List.mem_map.1 ha
    have := mem_lookup h (f := .ctx) (v := q.2) (e ▸ hq)
    rw [hc.2] at this
    cases this
  · exact h

theorem All2.keys {R : F × HV → F × HV → Prop} {xs ys : List (F × HV)} (h : All2 R xs ys)
    (hR : ∀ x y, R x y → y.1 = x.1) : ys.map (·.1) = xs.map (·.1) := by
  induction h with
  | nil => rfl
  | cons h _ ih => rw [List.map_cons, List.map_cons, hR _ _ h, ih]

theorem visit_ok (hG : Graph H rank) (hS : Share H cs root) (n : Nat) :
    ∀ p, rank p + 2 ≤ n → VisitOk H rank root cs n p := by
  induction n with
  | zero => exact fun p h => absurd h (by omega)
  | succ n ih =>
    intro p hrk G σ r cur hI ho hpos hfr hkey
    obtain ⟨c, fs0, hp⟩ := ho.1
    generalize hd : (σ.over.lookup r).getD cur = d at hpos ⊢
    let σ0 : St := { σ with over := σ.over.filter (·.1 ≠ r) }
    have hI0 : Inv H root G σ0 := ⟨hI.looks, hI.ctx, hI.pos, hI.orig, hI.seen, hI.back, hI.lists,
      hI.nodes, hI.len, hI.fresh⟩
    have hF0 : ∀ {D X Y}, Frame H D X Y G σ G σ0 :=
      ⟨fun _ _ h => h, fun _ _ h _ => h, Nat.le_refl _, fun _ _ _ _ _ _ => rfl,
        fun _ _ _ _ _ _ => rfl, fun _ _ _ _ _ _ _ _ => rfl, fun _ h _ => .inl h, fun _ h => h⟩
    obtain ⟨fs, r', fs1, σ1, G1, hr, hfix, hI1, hF1, hr1, hfs1, hG1, hr', hseen, hov⟩ :=
      start_ok hG hS hp hpos hI0 ho hfr
    have hpB : ¬ Below H p p := fun h => h.2 rfl
    have hn := withCtx_nodup (c := c) (hG.names p c fs0 hp)
    have hkeys := hfs1.keys fun _ _ h => h.1
    -- children in registered fields are in one field only
    have hedge : ∀ f v x, (f, v) ∈ fs1 → f ∈ registered c → x ∈ refs σ1.heap v →
        ∃ x0, Origin H G1 x x0 ∧ Edge H p f x0 := fun f v x hm hf hx => by
      obtain ⟨⟨f0, v0⟩, hm0, hs⟩ := hfs1.right hm
      have e : f = f0 := hs.1
      subst e
      have hnc : ¬ (c.hasCtx = true ∧ f = .ctx) := fun h => registered_ne_ctx hf h.2
      exact (hs.raw.2 hnc).refs_edge hI1 (fun _ _ h => h)
        ⟨c, fs0, hp, mem_withCtx hm0 hnc, hnc⟩ hx
    obtain ⟨hs1, hs2, hO⟩ := setup_over c fs1 σ1 (hkeys ▸ hn) (by
      intro f v f' v' x hm hm' hf hf' hx hx'
      obtain ⟨x0, h1, h2⟩ := hedge f v x hm hf hx
      obtain ⟨x1, h3, h4⟩ := hedge f' v' x hm' hf' hx'
      cases h1.det h3
      exact (hS.exclusive _ _ _ ⟨c, fs0, hp, hf⟩ h2 _ _ h4).2)
    generalize hσ2 : setup c fs1 σ1 = σ2 at hs1 hs2 hO
    have hI2 : Inv H root G1 σ2 := by
      refine ⟨?_, ?_, hI1.pos, hI1.orig, ?_, hI1.back, ?_, ?_, ?_, ?_⟩
      · rw [hs1]; exact hI1.looks
      · rw [hs1]; exact hI1.ctx
      · rw [hs2]; exact hI1.seen
      · rw [hs1]; exact hI1.lists
      · rw [hs1]; exact hI1.nodes
      · rw [hs1]; exact hI1.len
      · rw [hs1]; exact hI1.fresh
    have hF2 : ∀ {D X Y}, Frame H D X Y G1 σ1 G1 σ2 := by
      intro D X Y
      refine ⟨fun _ _ h => h, fun _ _ h _ => h, hs1 ▸ Nat.le_refl _, ?_, ?_, ?_, ?_, ?_⟩
      · intros; rw [hs1]
      · intros; rw [hs1]
      · intros; rw [hs1]
      · intro o h _; rw [hs2] at h; exact .inl h
      · intro o h; rw [hs2]; exact h
    have hF02 : Frame H (Below H p) (· = r') (· = p) G σ G1 σ2 := (hF0.trans hF1).trans hF2
    have hr'B : ∀ q, Below H p q → q ≠ r' := fun q hq e => by
      subst e
      rcases hr' with e | ⟨_, e, _⟩
      · exact hq.2 e
      · exact absurd (hq.1.isNode hG ⟨c, fs0, hp⟩).lt (Nat.not_lt.2 e)
    have hfr2 : Fresh H G1 σ2 (Below H p) := by
      intro q hq hg
      have hg0 : G q = none := by
        cases h1 : G q with
        | none => rfl
        | some m => rw [hF02.mono q m h1] at hg; cases hg
      obtain ⟨h1, h2, h3⟩ := hfr q hq.1 hg0
      obtain ⟨c', fs', hqn⟩ := hq.1.isNode hG ⟨c, fs0, hp⟩
      refine ⟨(hF02.node q c' fs' (hr'B q hq) (h1.trans hqn) hg).trans h1, fun hs => ?_,
        fun f l xs hf hl => ?_⟩
      · rcases hF02.seen q hs (hr'B q hq) with h | h
        · exact h2 h
        · exact h hg
      · exact (hF02.list q f l xs hq.2 hf hl (.inl hg)).trans (h3 f l xs hf hl)
    obtain ⟨σ3, G3, fs3, hv, hI3, hF3, hr3, hfs3, hG3, hov3⟩ := loop_ok hG hS (n := n)
      (fun a0 ha => ih a0 (by omega)) hp hpos (r := r')
      (ov := fun x => if x = r then none else σ.over.lookup x)
      (hr'.imp id fun h => h.2.1) hn (by omega) (withCtx c fs0) (dn0 := []) (dn := []) (td := fs1)
      rfl (by rw [hs1]; exact hr1) hI2 hfr2 hG1 .nil (by rw [hs1]; exact hfs1)
      (fun x k hk => by
        split at hk
        · cases hk
        · rename_i hx
          exact (hkey x k hx hk).mono hI2 hF02.mono)
      (by
        rw [hs1]
        refine ⟨hO.hit, fun x hx => ?_⟩
        rw [hO.miss x hx, hov]
        exact lookup_filter_ne σ.over r x)
    have hF : Frame H (Below H p) (· = r') (· = p) G σ G3 σ3 := hF02.trans hF3
    have hG3' : G3 r' = none ∨ G3 r' = some (.done p d) := hG3 ▸ hG1
    let G' := mark G3 r' (.done p d)
    have hself : G' r' = some (.done p d) := if_pos rfl
    have hmono : ∀ o x, G3 o = some x → G' o = some x := fun o x h => by
      by_cases e : o = r'
      · subst e
        rcases hG3' with h' | h' <;> rw [h'] at h <;> cases h
        exact hself
      · exact (if_neg e).trans h
    have hback : ∀ o, G' o = none → o ≠ r' ∧ G3 o = none := fun o h => by
      by_cases e : o = r'
      · subst e; rw [hself] at h; cases h
      · exact ⟨e, (if_neg e).symm.trans h⟩
    have hGp : ∃ d', G' p = some (.done p d') := by
      rcases hr' with e | ⟨⟨d', h⟩, _⟩
      · exact ⟨d, e ▸ hself⟩
      · exact ⟨d', hmono _ _ (hF.mono _ _ h)⟩
    have hdone : ∀ o q k, G' o = some (.done q k) →
        (o = r' ∧ q = p ∧ k = d) ∨ G3 o = some (.done q k) := fun o q k h => by
      by_cases e : o = r'
      · subst e; rw [hself] at h; cases h; exact .inl ⟨rfl, rfl, rfl⟩
      · exact .inr ((if_neg e).symm.trans h)
    refine ⟨r', σ3, G', ?_, ?_, ?_, hself, hov3⟩
    · have hr : σ.heap[r]? = some (.node c fs) := hr
      have hk : fs1.map (·.1) = fs1.map (·.1) := rfl
      unfold visit
      simp only [hr, hd]
      have hfix' : fixOne cs d r c fs { σ with over := σ.over.filter (·.1 ≠ r) } = (r', fs1, σ1) := hfix
      simp only [hfix', hσ2, hv]
    · refine ⟨?_, ?_, ?_, ?_, ?_, ?_, hI3.lists, hI3.nodes, hI3.len, ?_⟩
      · intro o q k h
        rcases hdone o q k h with ⟨rfl, rfl, rfl⟩ | h
        · refine ⟨c, fs0, fs3, hp, hr3, hfs3.imp_mem fun x _ y _ h => ?_⟩
          exact h.of (fun a => hmono a _) (fun _ _ _ h => ⟨h.1, hmono _ _ h.2⟩) fun _ _ _ _ _ => rfl
        · exact (hI3.looks o q k h).of hmono rfl fun _ _ _ _ _ => rfl
      · intro a k h
        by_cases e : a = r'
        · subst e; rw [hself] at h; cases h
        · exact hI3.ctx a k ((if_neg e).symm.trans h)
      · intro o q k h
        rcases hdone o q k h with ⟨rfl, rfl, rfl⟩ | h
        · exact hpos
        · exact hI3.pos o q k h
      · intro o q k h
        rcases hdone o q k h with ⟨rfl, rfl, rfl⟩ | h
        · exact hr'.imp Eq.symm fun h => h.2.1
        · exact hI3.orig o q k h
      · intro o q k c' gs h hq hc
        rcases hdone o q k h with ⟨rfl, rfl, rfl⟩ | h
        · rw [hp] at hq
          cases hq
          exact (hF2.trans hF3 : Frame H (Below H q) (· = o) (· = q) G1 σ1 G3 σ3).grow _ (hseen hc)
        · exact hI3.seen o q k c' gs h hq hc
      · intro o q k h
        rcases hdone o q k h with ⟨rfl, rfl, rfl⟩ | h
        · exact hGp
        · obtain ⟨k', h'⟩ := hI3.back o q k h
          exact ⟨k', hmono _ _ h'⟩
      · intro o ho
        have hlt : r' < σ3.heap.length := (List.getElem?_eq_some_iff.1 hr3).1
        exact (if_neg fun e => by omega).trans (hI3.fresh o ho)
    · refine ⟨fun o x h => hmono _ _ (hF.mono o x h), fun o hl hg hD => ?_, hF.len,
        fun o c' gs _ ho hg => hF.node o c' gs (hback o hg).1 ho (hback o hg).2,
        fun o q k _ hg hD => ?_, fun q f l xs _ hq hl hg => ?_, fun o ho _ => ?_, hF.grow⟩
      · have e : o ≠ r' := fun e => by
          subst e
          rcases hr' with e | ⟨_, _, e | e⟩
          · exact hD (e ▸ .refl)
          · exact absurd hl (Nat.not_lt.2 e)
          · rw [hg] at e; cases e
        exact (if_neg e).trans (hF.unmarked o hl hg fun h => hD h.1)
      · refine hF.other o q k (fun e => ?_) hg fun h => hD h.1
        subst e
        have := hF.mono _ _ hg
        rcases hG3' with h' | h' <;> rw [h'] at this <;> cases this
        exact hD .refl
      · have hqp : q ≠ p := fun e => by
          subst e
          rcases hg with hg | hg
          · obtain ⟨d', h⟩ := hGp
            rw [h] at hg
            cases hg
          · exact hg .refl
        exact hF.list q f l xs hqp hq hl (hg.imp (fun h => (hback q h).2) fun h h' => h h'.1)
      · by_cases e : o = r'
        · exact .inr fun h => (hback o h).1 e
        · rcases hF.seen o ho e with h | h
          · exact .inl h
          · exact .inr fun h' => h (hback o h').2

end Mcpyrate.FixCtx
