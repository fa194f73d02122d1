import Verif.Lemmas.FixCtxGraph
/-
What `_setup_subtree_contexts` registers, and the updates of the heap.
-/
namespace Mcpyrate.FixCtx
open Py

variable {H : List Obj} {rank : Nat → Nat} {root : Nat} {cs : Bool}

/-- The nodes that a field value stands for. -/
def refs (heap : List Obj) : HV → List Nat
  | .const _ => []
  | .ref r =>
    match heap[r]? with
    | some (.list xs) => xs.filterMap fun | .ref a => some a | .const _ => none
    | _ => [r]

theorem registerItems (k : K) (xs : List HV) (σ : St) :
    let σ' := xs.foldl (fun (σ : St) x => match x with
        | .ref a => { σ with over := (a, k) :: σ.over.filter (·.1 ≠ a) }
        | .const _ => σ) σ
    σ'.heap = σ.heap ∧ σ'.seen = σ.seen ∧
      ∀ x, σ'.over.lookup x = if .ref x ∈ xs then some k else σ.over.lookup x := by
  induction xs generalizing σ with
  | nil => simp
  | cons y xs ih =>
    cases y with
    | const c =>
      obtain ⟨h1, h2, h3⟩ := ih σ
      exact ⟨h1, h2, fun x => by simpa using h3 x⟩
    | ref a =>
      obtain ⟨h1, h2, h3⟩ := ih { σ with over := (a, k) :: σ.over.filter (·.1 ≠ a) }
      refine ⟨h1, h2, fun x => ?_⟩
      have h3 := h3 x
      simp only [List.foldl_cons] at h3 ⊢
      rw [h3, List.lookup_cons, lookup_filter_ne]
      by_cases hx : x = a
      · subst hx; simp
      · have hb : (x == a) = false := by simpa using hx
        simp [hb, hx]

theorem register_lookup (σ : St) (v : HV) (k : K) :
    (register σ v k).heap = σ.heap ∧ (register σ v k).seen = σ.seen ∧
      ∀ x, (register σ v k).over.lookup x = if x ∈ refs σ.heap v then some k else σ.over.lookup x := by
  cases v with
  | const c => simp [register, refs]
  | ref r =>
    have single : ∀ x, List.lookup x ((r, k) :: σ.over.filter (·.1 ≠ r)) =
        if x ∈ [r] then some k else σ.over.lookup x := fun x => by
      rw [List.lookup_cons, lookup_filter_ne]
      by_cases hx : x = r
      · subst hx; simp
      · have hb : (x == r) = false := by simpa using hx
        simp [hb, hx]
    cases hr : σ.heap[r]? with
    | none =>
      simp only [register, refs, hr]
      exact ⟨trivial, trivial, single⟩
    | some o =>
      cases o with
      | node c fs =>
        simp only [register, refs, hr]
        exact ⟨trivial, trivial, single⟩
      | list xs =>
        simp only [register, refs, hr]
        obtain ⟨h1, h2, h3⟩ := registerItems k xs σ
        refine ⟨h1, h2, fun x => (h3 x).trans ?_⟩
        have : (HV.ref x ∈ xs) ↔ x ∈ xs.filterMap fun | .ref a => some a | .const _ => none := by
          rw [List.mem_filterMap]
          constructor
          · exact fun h => ⟨_, h, rfl⟩
          · rintro ⟨y, hy, e⟩
            cases y with
            | const c => simp at e
            | ref a =>
              simp only [Option.some.injEq] at e
              exact e ▸ hy
        simp only [this]

theorem setup_aux (c : Cls) (fs : List (F × HV)) (R : List F) (σ : St) :
    let σ' := R.foldl (fun σ f => match fs.lookup f with
      | some v => register σ v (childState c .Load f)
      | none => σ) σ
    σ'.heap = σ.heap ∧ σ'.seen = σ.seen ∧
      (∀ x, (∀ f ∈ R, ∀ v, fs.lookup f = some v → x ∉ refs σ.heap v) →
        σ'.over.lookup x = σ.over.lookup x) ∧
      ∀ f ∈ R, ∀ v x, fs.lookup f = some v → x ∈ refs σ.heap v →
        (∀ f' ∈ R, ∀ v', fs.lookup f' = some v' → x ∈ refs σ.heap v' → f' = f) →
        σ'.over.lookup x = some (childState c .Load f) := by
  induction R generalizing σ with
  | nil => exact ⟨rfl, rfl, fun _ _ => rfl, fun f hf => by cases hf⟩
  | cons g R ih =>
    simp only [List.foldl_cons]
    cases hg : fs.lookup g with
    | none =>
      obtain ⟨h1, h2, h3, h4⟩ := ih σ
      refine ⟨h1, h2, fun x hx => h3 x fun f hf => hx f (List.mem_cons_of_mem _ hf), ?_⟩
      intro f hf v x hv hx hu
      rcases List.mem_cons.1 hf with rfl | hf
      · rw [hg] at hv; cases hv
      · exact h4 f hf v x hv hx fun f' hf' => hu f' (List.mem_cons_of_mem _ hf')
    | some w =>
      obtain ⟨r1, r2, r3⟩ := register_lookup σ w (childState c .Load g)
      obtain ⟨h1, h2, h3, h4⟩ := ih (register σ w (childState c .Load g))
      simp only [r1] at h3 h4
      refine ⟨h1.trans r1, h2.trans r2, fun x hx => ?_, ?_⟩
      · rw [h3 x fun f hf => hx f (List.mem_cons_of_mem _ hf), r3,
          if_neg (hx g (List.mem_cons_self ..) w hg)]
      · intro f hf v x hv hx hu
        by_cases hfR : f ∈ R
        · exact h4 f hfR v x hv hx fun f' hf' => hu f' (List.mem_cons_of_mem _ hf')
        · rcases List.mem_cons.1 hf with rfl | hf
          · rw [hv] at hg
            cases hg
            rw [h3 x fun f' hf' v' hv' hx' => hfR (hu f' (List.mem_cons_of_mem _ hf') v' hv' hx' ▸ hf'),
              r3, if_pos hx]
          · exact absurd hf hfR

/-- The states that are registered for the children in the fields `td`. -/
def Pend (heap : List Obj) (c : Cls) (td : List (F × HV)) (x : Nat) (k : K) : Prop :=
  ∃ f v, (f, v) ∈ td ∧ f ∈ registered c ∧ x ∈ refs heap v ∧ k = childState c .Load f

theorem lookup_mem {fs : List (F × HV)} {f : F} {v : HV} (h : fs.lookup f = some v) : (f, v) ∈ fs := by
  induction fs with
  | nil => simp at h
  | cons q fs ih =>
    obtain ⟨g, w⟩ := q
    rw [List.lookup_cons] at h
    by_cases hg : f = g
    · subst hg
      simp at h
      exact h ▸ List.mem_cons_self ..
    · have hb : (f == g) = false := by simpa using hg
      rw [hb] at h
      exact List.mem_cons_of_mem _ (ih h)

theorem mem_lookup {fs : List (F × HV)} (hn : (fs.map (·.1)).Nodup) {f : F} {v : HV}
    (h : (f, v) ∈ fs) : fs.lookup f = some v := by
  induction fs with
  | nil => cases h
  | cons q fs ih =>
    obtain ⟨g, w⟩ := q
    rw [List.map_cons, List.nodup_cons] at hn
    rw [List.lookup_cons]
    rcases List.mem_cons.1 h with e | h
    · cases e; simp
    · have hg : f ≠ g := fun e => hn.1 (e ▸ List.mem_map.2 ⟨_, h, rfl⟩)
      have hb : (f == g) = false := by simpa using hg
      rw [hb]
      exact ih hn.2 h

theorem setup_over (c : Cls) (fs : List (F × HV)) (σ : St) (hn : (fs.map (·.1)).Nodup)
    (hu : ∀ f v f' v' x, (f, v) ∈ fs → (f', v') ∈ fs → f ∈ registered c → f' ∈ registered c →
      x ∈ refs σ.heap v → x ∈ refs σ.heap v' → f' = f) :
    (setup c fs σ).heap = σ.heap ∧ (setup c fs σ).seen = σ.seen ∧
      OverRel (Pend σ.heap c fs) (fun x => σ.over.lookup x) (setup c fs σ).over := by
  obtain ⟨h1, h2, h3, h4⟩ := setup_aux c fs (registered c) σ
  refine ⟨h1, h2, ?_, ?_⟩
  · rintro x k ⟨f, v, hm, hf, hx, rfl⟩
    exact h4 f hf v x (mem_lookup hn hm) hx fun f' hf' v' hv' hx' =>
      hu f v f' v' x hm (lookup_mem hv') hf hf' hx hx'
  · intro x hx
    exact h3 x fun f hf v hv hx' => hx _ ⟨f, v, lookup_mem hv, hf, hx', rfl⟩

theorem Sim.refs_eq {G G' : Ghost} {σ σ' : St} {R : Nat → Nat → Prop} {v0 v : HV}
    (hI : Inv H root G σ) (hI' : Inv H root G' σ') (h : Sim H σ.heap R v0 v)
    (hR : ∀ a a0, R a a0 → Origin H G a a0) (hg : ∀ o x, G o = some x → G' o = some x)
    (hl : ∀ l xs, v0 = .ref l → H[l]? = some (.list xs) → σ'.heap[l]? = σ.heap[l]?) :
    refs σ'.heap v = refs σ.heap v := by
  cases h with
  | const => rfl
  | node hn h =>
    obtain ⟨_, _, _, _, h1⟩ := (hR _ _ h).node hI
    obtain ⟨_, _, _, _, h2⟩ := ((hR _ _ h).mono hI' hg).node hI'
    simp only [refs, h1, h2]
  | list h0 h1 h2 => simp only [refs, hl _ _ rfl h0]

/-- The nodes of a field of an object are versions of children of its origin. -/
theorem Sim.refs_edge {G : Ghost} {σ : St} {R : Nat → Nat → Prop} {p : Nat} {f : F} {v0 v : HV}
    (hI : Inv H root G σ) (h : Sim H σ.heap R v0 v) (hR : ∀ a a0, R a a0 → Origin H G a a0)
    (hh : Holds H p f v0) {x : Nat} (hx : x ∈ refs σ.heap v) :
    ∃ x0, Origin H G x x0 ∧ Edge H p f x0 := by
  cases h with
  | const => cases hx
  | node hn h =>
    obtain ⟨_, _, _, _, h1⟩ := (hR _ _ h).node hI
    simp only [refs, h1, List.mem_singleton] at hx
    subst hx
    exact ⟨_, hR _ _ h, .field hh hn⟩
  | list h0 h1 h2 =>
    simp only [refs, h1, List.mem_filterMap] at hx
    obtain ⟨y, hy, e⟩ := hx
    cases y with
    | const => simp at e
    | ref a =>
      simp only [Option.some.injEq] at e
      subst e
      obtain ⟨y0, hy0, hi⟩ := h2.right hy
      cases hi with
      | ref h => exact ⟨_, hR _ _ h, .item hh h0 hy0⟩

/-- Changing the object of one node. -/
theorem Inv.setNode {G : Ghost} {σ : St} (hI : Inv H root G σ) {r : Nat} {c : Cls}
    {fs fs' : List (F × HV)} (hr : σ.heap[r]? = some (.node c fs))
    (hc : ∀ d, G r ≠ some (.ctx d))
    (hd : ∀ p d, G r = some (.done p d) →
      Looks H (σ.heap.set r (.node c fs')) G r p d) :
    Inv H root G { σ with heap := σ.heap.set r (.node c fs') } := by
  have hlist : ∀ (l : Nat) (xs : List HV), H[l]? = some (.list xs) →
      (σ.heap.set r (.node c fs'))[l]? = σ.heap[l]? := fun l xs h => by
    refine List.getElem?_set_ne fun e => ?_
    obtain ⟨ys, hy⟩ := hI.lists l xs h
    rw [← e, hr] at hy
    cases hy
  refine ⟨fun o p d hg => ?_, fun a d hg => ?_, hI.pos, hI.orig, hI.seen, hI.back, ?_, ?_, ?_, ?_⟩
  · by_cases ho : o = r
    · subst ho; exact hd p d hg
    · exact (hI.looks o p d hg).of (fun _ _ h => h) (List.getElem?_set_ne fun e => ho e.symm)
        fun f l xs _ hl => hlist l xs hl
  · refine ⟨?_, (hI.ctx a d hg).2⟩
    rw [← (hI.ctx a d hg).1]
    exact List.getElem?_set_ne fun e => hc d (by rw [e]; exact hg)
  · exact fun l xs hl => let ⟨ys, h⟩ := hI.lists l xs hl; ⟨ys, (hlist l xs hl).trans h⟩
  · intro o c' fs0 ho
    obtain ⟨fs1, h⟩ := hI.nodes o c' fs0 ho
    by_cases e : o = r
    · subst e
      rw [hr] at h
      cases h
      exact ⟨fs', List.getElem?_set_self (List.getElem?_eq_some_iff.1 hr).1⟩
    · exact ⟨fs1, (List.getElem?_set_ne fun e' => e e'.symm).trans h⟩
  · simpa using hI.len
  · simpa using hI.fresh

theorem Frame.setNode {D Y : Nat → Prop} {G : Ghost} {σ : St} (hI : Inv H root G σ) {r : Nat}
    {c : Cls} {fs fs' : List (F × HV)} (hr : σ.heap[r]? = some (.node c fs)) :
    Frame H D (· = r) Y G σ G { σ with heap := σ.heap.set r (.node c fs') } where
  mono _ _ h := h
  unmarked _ _ h _ := h
  len := by simp
  node _ _ _ hx _ _ := List.getElem?_set_ne fun e => hx e.symm
  other _ _ _ hx _ _ := List.getElem?_set_ne fun e => hx e.symm
  list q f l xs _ _ hl _ := by
    refine List.getElem?_set_ne fun e => ?_
    obtain ⟨ys, hy⟩ := hI.lists l xs hl
    rw [← e, hr] at hy
    cases hy
  seen _ h _ := .inl h
  grow _ h := h

/-- Changing the list in a field of the node at `p`. -/
theorem Inv.setList (hG : Graph H rank) (hS : Share H cs root) {G : Ghost} {σ : St}
    (hI : Inv H root G σ) {p l : Nat} {f : F} {c : Cls} {fs0 : List (F × HV)} {xs0 ys : List HV} {d : K}
    (hp : H[p]? = some (.node c fs0)) (hpos : PosS H root d p) (hh : Holds H p f (.ref l))
    (hl : H[l]? = some (.list xs0)) (hy : All2 (Item (Done H G (childState c d f))) xs0 ys) :
    Inv H root G { σ with heap := σ.heap.set l (.list ys) } := by
  obtain ⟨zs, hz⟩ := hI.lists l xs0 hl
  have hset : (σ.heap.set l (.list ys))[l]? = some (.list ys) :=
    List.getElem?_set_self (List.getElem?_eq_some_iff.1 hz).1
  have hnode : ∀ (o : Nat) (c : Cls) (fs : List (F × HV)), σ.heap[o]? = some (.node c fs) →
      (σ.heap.set l (.list ys))[o]? = some (.node c fs) := fun o c fs h =>
    (List.getElem?_set_ne fun e => by rw [← e, hz] at h; cases h).trans h
  refine ⟨fun o q d' hg => ?_, fun a d hg => ⟨hnode _ _ _ (hI.ctx a d hg).1, (hI.ctx a d hg).2⟩,
    hI.pos, hI.orig, hI.seen, hI.back, ?_, ?_, ?_, ?_⟩
  · obtain ⟨c', gs0, gs, h0, h1, h2⟩ := hI.looks o q d' hg
    refine ⟨c', gs0, gs, h0, hnode _ _ _ h1, h2.imp_mem fun x hx y _ h => ⟨h.1, ?_⟩⟩
    obtain ⟨g, v0⟩ := x
    obtain ⟨g', v⟩ := y
    have h3 := h.2
    dsimp only at h3 ⊢
    split
    · rename_i hc
      rwa [if_pos hc] at h3
    · rename_i hc
      rw [if_neg hc] at h3
      cases v0 with
      | const k =>
        cases h3 with
        | const => exact .const _
      | ref l' =>
        by_cases e : l' = l
        · subst e
          have hq : Holds H q g (.ref l') := ⟨c', gs0, h0, mem_withCtx hx hc, hc⟩
          obtain ⟨e1, e2⟩ := hG.lists _ _ _ _ _ _ hh hq hl
          subst e1
          rw [hp] at h0
          cases h0
          rcases hS.contexts _ _ _ hpos (hI.pos _ _ _ hg) with e3 | ⟨_, _, e3⟩
          · subst e3
            cases h3 with
            | node hn _ =>
              obtain ⟨_, _, hn⟩ := hn
              rw [hl] at hn
              cases hn
            | list h3 _ _ => exact .list hl hset (e2 ▸ hy)
          · exact absurd hl (e3 _ _ _ hh)
        · exact h3.of (fun _ _ h => h) fun l'' _ e' _ => by
            cases e'
            exact List.getElem?_set_ne fun e' => e e'.symm
  · intro l' xs hl'
    by_cases e : l' = l
    · subst e; exact ⟨ys, hset⟩
    · obtain ⟨zs', h⟩ := hI.lists l' xs hl'
      exact ⟨zs', (List.getElem?_set_ne fun e' => e e'.symm).trans h⟩
  · exact fun o c fs ho => let ⟨fs', h⟩ := hI.nodes o c fs ho; ⟨fs', hnode _ _ _ h⟩
  · simpa using hI.len
  · simpa using hI.fresh

theorem Frame.setList (hG : Graph H rank) {D X : Nat → Prop} {G : Ghost} {σ : St}
    (hI : Inv H root G σ) {p l : Nat} {f : F} {xs0 ys : List HV} (hh : Holds H p f (.ref l))
    (hl : H[l]? = some (.list xs0)) :
    Frame H D X (· = p) G σ G { σ with heap := σ.heap.set l (.list ys) } := by
  obtain ⟨zs, hz⟩ := hI.lists l xs0 hl
  exact {
    mono := fun _ _ h => h
    unmarked := fun _ _ h _ => h
    len := by simp
    node := fun o c fs _ ho _ => List.getElem?_set_ne fun e => by rw [← e, hz] at ho; cases ho
    other := fun o q d _ hg _ => by
      obtain ⟨_, _, _, _, h1, _⟩ := hI.looks o q d hg
      exact List.getElem?_set_ne fun e => by rw [← e, hz] at h1; cases h1
    list := fun q f' l' xs hy hq _ _ => List.getElem?_set_ne fun e => by
      subst e
      exact hy (hG.lists _ _ _ _ _ _ hh hq hl).1
    seen := fun _ h _ => .inl h
    grow := fun _ h => h }

end Mcpyrate.FixCtx
