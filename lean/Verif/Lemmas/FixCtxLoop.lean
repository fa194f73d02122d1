import Verif.Lemmas.FixCtxSetup
/-
`generic_visit` on shared graphs: one child, the items of a list, the fields of a node.
-/
namespace Mcpyrate.FixCtx
open Py

variable {H : List Obj} {rank : Nat → Nat} {root : Nat} {cs : Bool}

/-- Strictly below `p`. -/
def Below (H : List Obj) (p q : Nat) : Prop := Desc H p q ∧ q ≠ p

/-- Nothing excepted. -/
abbrev Nowhere : Nat → Prop := fun _ => False

/-- `visit` does what it should for the node at `p`. -/
def VisitOk (H : List Obj) (rank : Nat → Nat) (root : Nat) (cs : Bool) (n p : Nat) : Prop :=
  ∀ G σ r cur, Inv H root G σ → Origin H G r p → PosS H root ((σ.over.lookup r).getD cur) p →
    Fresh H G σ (Desc H p) →
    (∀ x k, x ≠ r → σ.over.lookup x = some k → Key H rank G x (rank p)) →
    ∃ r' σ' G', visit cs n cur r σ = some (r', σ') ∧ Inv H root G' σ' ∧
      Frame H (Desc H p) Nowhere Nowhere G σ G' σ' ∧
      G' r' = some (.done p ((σ.over.lookup r).getD cur)) ∧
      ∀ x, σ'.over.lookup x = if x = r then none else σ.over.lookup x

theorem Desc.sub (hG : Graph H rank) {p f a q} (he : Edge H p f a) (h : Desc H a q) :
    Below H p q := by
  refine ⟨(Desc.step .refl he).trans h, fun e => ?_⟩
  subst e
  have := hG.acyclic _ _ _ he
  rcases h.rank_lt hG with rfl | h
  · exact Nat.lt_irrefl _ this
  · exact Nat.lt_irrefl _ (Nat.lt_trans this h)

theorem registered_ne_ctx {c : Cls} {f : F} (h : f ∈ registered c) : f ≠ .ctx := by
  rintro rfl
  cases c with
  | marker n => exact absurd h List.not_mem_nil
  | py k => cases k <;> first | (exact absurd h List.not_mem_nil) | exact absurd h (by decide)

theorem mem_refs_list {heap : List Obj} {l x : Nat} {xs : List HV} (h : heap[l]? = some (.list xs)) :
    x ∈ refs heap (.ref l) ↔ .ref x ∈ xs := by
  simp only [refs, h, List.mem_filterMap]
  constructor
  · rintro ⟨y, hy, e⟩
    cases y with
    | const c => simp at e
    | ref a =>
      simp only [Option.some.injEq] at e
      exact e ▸ hy
  · exact fun h => ⟨_, h, rfl⟩

theorem map_mid {dn td : List (F × HV)} {g : F} {v v' : HV}
    (hn : ((dn ++ (g, v) :: td).map (·.1)).Nodup) :
    (dn ++ (g, v) :: td).map (fun (x : F × HV) => if x.1 = g then (x.1, v') else (x.1, x.2)) =
      dn ++ (g, v') :: td := by
  rw [List.map_append, List.map_cons, List.nodup_append, List.nodup_cons] at hn
  obtain ⟨_, ⟨h2, _⟩, h3⟩ := hn
  have keep : ∀ xs : List (F × HV), (∀ q ∈ xs, q.1 ≠ g) →
      xs.map (fun (x : F × HV) => if x.1 = g then (x.1, v') else (x.1, x.2)) = xs := fun xs h => by
    induction xs with
    | nil => rfl
    | cons q xs ih =>
      rw [List.map_cons, if_neg (h q (List.mem_cons_self ..)),
        ih fun q hq => h q (List.mem_cons_of_mem _ hq)]
  rw [List.map_append, List.map_cons, if_pos rfl,
    keep dn fun q hq e => h3 _ (List.mem_map.2 ⟨q, hq, rfl⟩) _ (e ▸ List.mem_cons_self ..) rfl,
    keep td fun q hq e => h2 (List.mem_map.2 ⟨q, hq, e⟩)]

/-- A new ctx object is a leaf. -/
theorem visit_ctx (cs : Bool) (m : Nat) (d : K) (a : Nat) (σ : St)
    (h : σ.heap[a]? = some (.node (.py d) [])) (hd : IsCtx d) :
    visit cs (m + 1) d a σ = some (a, { σ with over := σ.over.filter (·.1 ≠ a) }) := by
  rcases hd with rfl | rfl | rfl <;>
    simp [visit, h, fixOne, Cls.hasCtx, K.hasCtx, setup, registered, visitFields]

/-- The nodes in `P` are registered by `p`. -/
abbrev POk (H : List Obj) (p : Nat) (c : Cls) (G : Ghost) (P : Nat → K → Prop) : Prop :=
  ∀ x k, P x k → ∃ x0 f', Origin H G x x0 ∧ f' ∈ registered c ∧ Edge H p f' x0

section
variable (hG : Graph H rank) (hS : Share H cs root) {n p : Nat} {c : Cls} {fs0 : List (F × HV)}
  {d : K} (IH : ∀ a0, rank a0 < rank p → VisitOk H rank root cs n a0)
  (hp : H[p]? = some (.node c fs0)) (hpos : PosS H root d p)
include hG hS IH hp hpos

theorem child_ok {G : Ghost} {σ : St} {P : Nat → K → Prop} {ov : Nat → Option K}
    (hI : Inv H root G σ) (hfr : Fresh H G σ (Below H p)) (hO : OverRel P ov σ.over)
    (hov : ∀ x k, ov x = some k → Key H rank G x (rank p)) (hP : POk H p c G P)
    {a a0 : Nat} {f : F} (ha : Origin H G a a0) (he : Edge H p f a0)
    (hPa : f ∈ registered c → P a (childState c .Load f)) :
    ∃ a' σ' G', visit cs n d a σ = some (a', σ') ∧ Inv H root G' σ' ∧
      Frame H (Below H p) Nowhere Nowhere G σ G' σ' ∧ Done H G' (childState c d f) a' a0 ∧
      OverRel (fun x k => P x k ∧ x ≠ a) ov σ'.over ∧ Fresh H G' σ' (Below H p) := by
  have hrk := hG.acyclic _ _ _ he
  have hova : ov a = none := by
    cases h : ov a with
    | none => rfl
    | some k =>
      obtain ⟨x0, p0, f0, h1, h2, h3, h4⟩ := hov a k h
      cases ha.det h1
      rw [(hS.exclusive _ _ _ h2 h3 _ _ he).1] at h4
      exact absurd h4 (Nat.lt_irrefl _)
  have hst : (σ.over.lookup a).getD d = childState c d f := by
    by_cases hf : f ∈ registered c
    · rw [hO.hit _ _ (hPa hf)]
      exact childState_registered hf d
    · rw [hO.miss a, hova, childState_other hf]
      · rfl
      · intro k hk
        obtain ⟨x0, f', h1, h2, h3⟩ := hP a k hk
        cases ha.det h1
        exact hf ((hS.exclusive _ _ _ ⟨c, fs0, hp, h2⟩ h3 _ _ he).2 ▸ h2)
  have hpos' : PosS H root ((σ.over.lookup a).getD d) a0 := hst ▸ .child hpos he hp
  obtain ⟨a', σ', G', h1, h2, h3, h4, h5⟩ := IH a0 hrk G σ a d hI ha hpos'
    (fun q hq => hfr q (hq.sub hG he)) (fun x k hx hk => by
      by_cases hPx : ∃ k, P x k
      · obtain ⟨k', hk'⟩ := hPx
        obtain ⟨x0, f', h1, h2, h3⟩ := hP x k' hk'
        exact ⟨x0, p, f', h1, ⟨c, fs0, hp, h2⟩, h3, hrk⟩
      · rw [hO.miss x fun k hk => hPx ⟨k, hk⟩] at hk
        obtain ⟨x0, p0, f0, h1, h2, h3, h4⟩ := hov x k hk
        exact ⟨x0, p0, f0, h1, h2, h3, Nat.lt_trans hrk h4⟩)
  have hF : Frame H (Below H p) Nowhere Nowhere G σ G' σ' :=
    h3.weaken (fun o ho => ho.sub hG he) (fun _ h => h) fun _ h => h
  refine ⟨a', σ', G', h1, h2, hF, ⟨ha.1, hst ▸ h4⟩, ⟨?_, ?_⟩, hfr.frame ?_ hF⟩
  · rintro x k ⟨hk, hx⟩
    rw [h5, if_neg hx]
    exact hO.hit x k hk
  · intro x hx
    rw [h5]
    split
    · rename_i e
      rw [e, hova]
    · rename_i e
      exact hO.miss x fun k hk => hx k ⟨hk, e⟩
  · exact fun q hq => hq.1.isNode hG ⟨c, fs0, hp⟩

theorem items_ok {f : F} {P0 : Nat → K → Prop} {ov : Nat → Option K} (xs0 xs : List HV) :
    ∀ {G : Ghost} {σ : St}, Inv H root G σ → Fresh H G σ (Below H p) →
    (∀ x k, ov x = some k → Key H rank G x (rank p)) →
    (∀ x k, P0 x k → ∃ x0 f', Origin H G x x0 ∧ f' ∈ registered c ∧ Edge H p f' x0 ∧ f' ≠ f) →
    All2 (Item (Origin H G)) xs0 xs → (∀ a0, .ref a0 ∈ xs0 → Edge H p f a0) →
    (f ∈ registered c → xs0.Pairwise fun x y => ∀ a, x = .ref a → y ≠ .ref a) →
    OverRel (fun x k => P0 x k ∨ (f ∈ registered c ∧ .ref x ∈ xs ∧ k = childState c .Load f)) ov
      σ.over →
    ∃ ys σ' G', visitItems (visit cs n d) xs σ = some (ys, σ') ∧ Inv H root G' σ' ∧
      Frame H (Below H p) Nowhere Nowhere G σ G' σ' ∧
      All2 (Item (Done H G' (childState c d f))) xs0 ys ∧ OverRel P0 ov σ'.over ∧
      Fresh H G' σ' (Below H p) := by
  induction xs generalizing xs0 with
  | nil =>
    intro G σ hI hfr _ _ h2 _ _ hO
    cases h2
    exact ⟨[], σ, G, rfl, hI, .refl, .nil, hO.congr fun x k => by simp, hfr⟩
  | cons y xs ih =>
    intro G σ hI hfr hov hP0 h2 hed hone hO
    cases h2 with
    | cons hy h2 =>
    cases hy with
    | const k =>
      obtain ⟨ys, σ', G', h3, h4, h5, h6, h7⟩ := ih _ hI hfr hov hP0 h2
        (fun a0 h => hed a0 (List.mem_cons_of_mem _ h)) (fun hf => (List.pairwise_cons.1 (hone hf)).2)
        (hO.congr fun x k => by simp)
      exact ⟨.const k :: ys, σ', G', by rw [visitItems, h3], h4, h5, .cons (.const k) h6, h7⟩
    | @ref a a0 ha =>
      have he := hed a0 (List.mem_cons_self ..)
      obtain ⟨a', σ1, G1, h3, h4, h5, h6, h7, h8⟩ := child_ok hG hS IH hp hpos hI hfr hO hov
        (fun x k hk => by
          rcases hk with hk | ⟨hf, hx, _⟩
          · obtain ⟨x0, f', h1, h2, h3, _⟩ := hP0 x k hk
            exact ⟨x0, f', h1, h2, h3⟩
          · rcases List.mem_cons.1 hx with e | hx
            · cases e; exact ⟨a0, f, ha, hf, he⟩
            · obtain ⟨y0, hy0, hi⟩ := h2.right hx
              cases hi with
              | ref h => exact ⟨_, f, h, hf, hed _ (List.mem_cons_of_mem _ hy0)⟩)
        ha he (fun hf => .inr ⟨hf, List.mem_cons_self .., rfl⟩)
      have hxa : f ∈ registered c → .ref a ∉ xs := fun hf hx => by
        obtain ⟨y0, hy0, hi⟩ := h2.right hx
        cases hi with
        | ref h =>
          cases ha.det h
          exact (List.pairwise_cons.1 (hone hf)).1 _ hy0 a0 rfl rfl
      obtain ⟨ys, σ2, G2, g3, g4, g5, g6, g7⟩ := ih _ h4 h8
        (fun x k hk => (hov x k hk).mono h4 h5.mono)
        (fun x k hk => let ⟨x0, f', e1, e2⟩ := hP0 x k hk; ⟨x0, f', e1.mono h4 h5.mono, e2⟩)
        (h2.imp_mem fun x _ y _ h => by
          cases h with
          | const => exact .const _
          | ref h => exact .ref (h.mono h4 h5.mono))
        (fun a0 h => hed a0 (List.mem_cons_of_mem _ h)) (fun hf => (List.pairwise_cons.1 (hone hf)).2)
        (h7.congr fun x k => by
          constructor
          · rintro (h | ⟨h, hx, hk⟩)
            · refine ⟨.inl h, fun e => ?_⟩
              subst e
              obtain ⟨x0, f', e1, e2, e3, e4⟩ := hP0 _ _ h
              cases ha.det e1
              exact e4 (hS.exclusive _ _ _ ⟨c, fs0, hp, e2⟩ e3 _ _ he).2.symm
            · exact ⟨.inr ⟨h, List.mem_cons_of_mem _ hx, hk⟩, fun e => hxa h (e ▸ hx)⟩
          · rintro ⟨h | ⟨h, hx, hk⟩, hne⟩
            · exact .inl h
            · rcases List.mem_cons.1 hx with e | hx
              · cases e; exact absurd rfl hne
              · exact .inr ⟨h, hx, hk⟩)
      exact ⟨.ref a' :: ys, σ2, G2, by rw [visitItems, h3]; simp only [g3], g4, h5.trans g5,
        .cons (.ref ⟨h6.1, g5.mono _ _ h6.2⟩) g6, g7⟩

theorem loop_ok {r : Nat} {ov : Nat → Option K} (hr : r = p ∨ H.length ≤ r)
    (hn : ((withCtx c fs0).map (·.1)).Nodup) (hn1 : 1 ≤ n) (td0 : List (F × HV)) :
    ∀ {dn0 dn td : List (F × HV)} {G : Ghost} {σ : St}, withCtx c fs0 = dn0 ++ td0 →
    σ.heap[r]? = some (.node c (dn ++ td)) → Inv H root G σ → Fresh H G σ (Below H p) →
    (G r = none ∨ G r = some (.done p d)) →
    All2 (FSim H σ.heap G c d (Done H G)) dn0 dn →
    All2 (FSim H σ.heap G c d (fun _ => Origin H G)) td0 td →
    (∀ x k, ov x = some k → Key H rank G x (rank p)) →
    OverRel (Pend σ.heap c td) ov σ.over →
    ∃ σ' G' fs', visitFields (visit cs n d) r (td.map (·.1)) σ = some σ' ∧ Inv H root G' σ' ∧
      Frame H (Below H p) (· = r) (· = p) G σ G' σ' ∧ σ'.heap[r]? = some (.node c fs') ∧
      All2 (FSim H σ'.heap G' c d (Done H G')) (withCtx c fs0) fs' ∧ G' r = G r ∧
      ∀ x, σ'.over.lookup x = ov x := by
  induction td0 with
  | nil =>
    intro dn0 dn td G σ hw hh hI hfr hGr h1 h2 hov hO
    cases h2
    rw [List.append_nil] at hw hh
    refine ⟨σ, G, dn, rfl, hI, .refl, hh, hw ▸ h1, rfl, fun x => hO.miss x ?_⟩
    rintro k ⟨f, v, hm, _⟩
    cases hm
  | cons q0 td0 ih =>
    intro dn0 dn td G σ hw hh hI hfr hGr h1 h2 hov hO
    obtain ⟨f, v0⟩ := q0
    cases h2 with
    | @cons _ q _ td hq h2 =>
    obtain ⟨g, v⟩ := q
    have hgf : g = f := hq.1
    subst hgf
    have keys : (dn ++ (g, v) :: td).map (·.1) = (withCtx c fs0).map (·.1) := by
      have : ∀ {R : F × HV → F × HV → Prop} {xs ys : List (F × HV)}, (∀ x y, R x y → y.1 = x.1) →
          All2 R xs ys → ys.map (·.1) = xs.map (·.1) := by
        intro R xs ys hR h
        induction h with
        | nil => rfl
        | cons h _ ih => rw [List.map_cons, List.map_cons, hR _ _ h, ih]
      rw [hw, List.map_append, List.map_append, List.map_cons, List.map_cons,
        this (fun _ _ h => h.1) h1, this (fun _ _ h => h.1) h2]
    have hnd : ((dn ++ (g, v) :: td).map (·.1)).Nodup := keys ▸ hn
    have hlook : (dn ++ (g, v) :: td).lookup g = some v :=
      mem_lookup hnd (List.mem_append_right _ (List.mem_cons_self ..))
    have hmem : (g, v0) ∈ withCtx c fs0 := hw ▸ List.mem_append_right _ (List.mem_cons_self ..)
    have hrB : ¬ Below H p r := fun h => by
      rcases hr with rfl | hr
      · exact h.2 rfl
      · exact absurd (h.1.isNode hG ⟨c, fs0, hp⟩).lt (Nat.not_lt.2 hr)
    have hrl : r < σ.heap.length := (List.getElem?_eq_some_iff.1 hh).1
    -- the other fields have other names
    have hne : ∀ q0 ∈ dn0 ++ td0, q0.1 ≠ g := fun q0 hm e => by
      have hn' := hn
      rw [hw, List.map_append, List.map_cons, List.nodup_append, List.nodup_cons] at hn'
      obtain ⟨_, ⟨h2, _⟩, h3⟩ := hn'
      rcases List.mem_append.1 hm with hm | hm
      · exact h3 _ (List.mem_map.2 ⟨q0, hm, e⟩) _ (List.mem_cons_self ..) rfl
      · exact h2 (List.mem_map.2 ⟨q0, hm, e⟩)
    have hsub : ∀ q0 ∈ dn0 ++ td0, q0 ∈ withCtx c fs0 := fun q0 hm => by
      rw [hw]
      rcases List.mem_append.1 hm with hm | hm
      · exact List.mem_append_left _ hm
      · exact List.mem_append_right _ (List.mem_cons_of_mem _ hm)
    -- what is registered for the remaining fields
    have hP0 : ∀ x k, Pend σ.heap c td x k →
        ∃ x0 f', Origin H G x x0 ∧ f' ∈ registered c ∧ Edge H p f' x0 ∧ f' ≠ g := by
      rintro x k ⟨f', v', hm, hf', hx, _⟩
      obtain ⟨⟨f0, w0⟩, hm0, hs⟩ := h2.right hm
      have e : f' = f0 := hs.1
      subst e
      have hnc : ¬ (c.hasCtx = true ∧ f' = .ctx) := fun h => registered_ne_ctx hf' h.2
      have hs2 := hs.2
      dsimp only at hs2
      rw [if_neg hnc] at hs2
      obtain ⟨x0, hx0, he⟩ := hs2.refs_edge hI (fun _ _ h => h)
        (p := p) (f := f') ⟨c, fs0, hp, mem_withCtx (hsub _ (List.mem_append_right _ hm0)) hnc, hnc⟩ hx
      exact ⟨x0, f', hx0, hf', he, hne _ (List.mem_append_right _ hm0)⟩
    -- go on with the next field
    have advance : ∀ (G1 : Ghost) (σ1 : St) (v' : HV), Inv H root G1 σ1 →
        Fresh H G1 σ1 (Below H p) → Frame H (Below H p) (· = r) (· = p) G σ G1 σ1 →
        σ1.heap[r]? = some (.node c (dn ++ (g, v') :: td)) →
        FSim H σ1.heap G1 c d (Done H G1) (g, v0) (g, v') →
        (∀ f' l xs, f' ≠ g → Holds H p f' (.ref l) → H[l]? = some (.list xs) →
          σ1.heap[l]? = σ.heap[l]?) →
        OverRel (Pend σ.heap c td) ov σ1.over →
        ∃ σ' G' fs', visitFields (visit cs n d) r (td.map (·.1)) σ1 = some σ' ∧ Inv H root G' σ' ∧
          Frame H (Below H p) (· = r) (· = p) G σ G' σ' ∧ σ'.heap[r]? = some (.node c fs') ∧
          All2 (FSim H σ'.heap G' c d (Done H G')) (withCtx c fs0) fs' ∧ G' r = G r ∧
          ∀ x, σ'.over.lookup x = ov x := by
      intro G1 σ1 v' hI1 hfr1 hF hh1 hv' hl hO1
      have hG1 : G1 r = G r := by
        rcases hGr with h | h
        · rw [h]; exact hF.unmarked r hrl h hrB
        · rw [h]; exact hF.mono _ _ h
      have hlist : ∀ q0 ∈ dn0 ++ td0, ∀ l xs, ¬ (c.hasCtx = true ∧ q0.1 = .ctx) → q0.2 = .ref l →
          H[l]? = some (.list xs) → σ1.heap[l]? = σ.heap[l]? := fun q0 hm l xs hc e hx =>
        hl q0.1 l xs (hne _ hm) ⟨c, fs0, hp, e ▸ mem_withCtx (hsub _ hm) hc, hc⟩ hx
      have hd1 : All2 (FSim H σ1.heap G1 c d (Done H G1)) dn0 dn := h1.imp_mem fun x hx y _ h =>
        h.of (fun a => hF.mono a _) (fun _ _ _ h => ⟨h.1, hF.mono _ _ h.2⟩)
          (hlist x (List.mem_append_left _ hx))
      have ht1 : All2 (FSim H σ1.heap G1 c d (fun _ => Origin H G1)) td0 td :=
        h2.imp_mem fun x hx y _ h => h.of (fun a => hF.mono a _)
          (fun _ _ _ h => h.mono hI1 hF.mono) (hlist x (List.mem_append_right _ hx))
      obtain ⟨σ', G', fs', e1, e2, e3, e4, e5, e6, e7⟩ := ih (dn0 := dn0 ++ [(g, v0)])
        (dn := dn ++ [(g, v')]) (td := td) (by simpa using hw) (by simpa using hh1) hI1 hfr1
        (hG1 ▸ hGr) (hd1.append (.cons hv' .nil)) ht1
        (fun x k hk => (hov x k hk).mono hI1 hF.mono)
        (hO1.congr fun x k => by
          have : ∀ f' v'', (f', v'') ∈ td → f' ∈ registered c →
              refs σ1.heap v'' = refs σ.heap v'' := fun f' v'' hm hf' => by
            obtain ⟨⟨f0, w0⟩, hm0, hs⟩ := h2.right hm
            have e : f' = f0 := hs.1
            subst e
            have hnc : ¬ (c.hasCtx = true ∧ f' = .ctx) := fun h => registered_ne_ctx hf' h.2
            have hs2 := hs.2
            dsimp only at hs2
            rw [if_neg hnc] at hs2
            exact hs2.refs_eq hI hI1 (fun _ _ h => h) hF.mono fun l xs e hx =>
              hlist _ (List.mem_append_right _ hm0) l xs hnc e hx
          constructor
          · rintro ⟨f', v'', hm, hf', hx, hk⟩
            exact ⟨f', v'', hm, hf', this f' v'' hm hf' ▸ hx, hk⟩
          · rintro ⟨f', v'', hm, hf', hx, hk⟩
            exact ⟨f', v'', hm, hf', (this f' v'' hm hf').symm ▸ hx, hk⟩)
      exact ⟨σ', G', fs', e1, e2, hF.trans e3, e4, e5, e6.trans hG1, e7⟩
    -- put back what the visit of a node returned
    have fin : ∀ (G1 : Ghost) (σ1 : St) (a' : Nat), Inv H root G1 σ1 →
        Fresh H G1 σ1 (Below H p) → Frame H (Below H p) Nowhere Nowhere G σ G1 σ1 →
        FSim H σ1.heap G1 c d (Done H G1) (g, v0) (g, .ref a') →
        OverRel (Pend σ.heap c td) ov σ1.over →
        ∃ σ' G' fs', visitFields (visit cs n d) r (td.map (·.1))
            { σ1 with heap := setField σ1.heap r g (.ref a') } = some σ' ∧ Inv H root G' σ' ∧
          Frame H (Below H p) (· = r) (· = p) G σ G' σ' ∧ σ'.heap[r]? = some (.node c fs') ∧
          All2 (FSim H σ'.heap G' c d (Done H G')) (withCtx c fs0) fs' ∧ G' r = G r ∧
          ∀ x, σ'.over.lookup x = ov x := by
      intro G1 σ1 a' hI1 hfr1 hF hv' hO1
      have hh1 : σ1.heap[r]? = some (.node c (dn ++ (g, v) :: td)) := by
        rw [← hh]
        rcases hGr with h | h
        · exact hF.node r _ _ id hh (hF.unmarked r hrl h hrB)
        · exact hF.other r p d id h fun hb => hb.2 rfl
      have hG1 : G1 r = none ∨ G1 r = some (.done p d) := by
        rcases hGr with h | h
        · exact .inl (hF.unmarked r hrl h hrB)
        · exact .inr (hF.mono _ _ h)
      have hmap : (dn ++ (g, v) :: td).map (fun (x : F × HV) => if x.1 = g then (x.1, HV.ref a') else (x.1, x.2)) =
          dn ++ (g, .ref a') :: td := map_mid hnd
      have hset : setField σ1.heap r g (.ref a') =
          σ1.heap.set r (.node c (dn ++ (g, .ref a') :: td)) := by
        unfold setField
        rw [hh1]
        exact congrArg (fun z => σ1.heap.set r (.node c z)) hmap
      rw [hset]
      have hlr : ∀ (l : Nat) (xs : List HV), H[l]? = some (.list xs) →
          (σ1.heap.set r (.node c (dn ++ (g, .ref a') :: td)))[l]? = σ1.heap[l]? := fun l xs hl => by
        refine List.getElem?_set_ne fun e => ?_
        obtain ⟨ys, hy⟩ := hI1.lists l xs hl
        rw [← e, hh1] at hy
        cases hy
      have hself : (σ1.heap.set r (.node c (dn ++ (g, .ref a') :: td)))[r]? =
          some (.node c (dn ++ (g, .ref a') :: td)) :=
        List.getElem?_set_self (List.getElem?_eq_some_iff.1 hh1).1
      have hv2 : FSim H (σ1.heap.set r (.node c (dn ++ (g, .ref a') :: td))) G1 c d (Done H G1)
          (g, v0) (g, .ref a') :=
        hv'.of (fun _ h => h) (fun _ _ _ h => h) fun l xs _ _ hl => hlr l xs hl
      have hI2 := hI1.setNode (fs' := dn ++ (g, .ref a') :: td) hh1
        (fun d' e => by rcases hG1 with h | h <;> rw [h] at e <;> cases e)
        (fun p' d' e => by
          rcases hG1 with h | h
          · rw [h] at e; cases e
          · rw [h] at e
            cases e
            obtain ⟨c', gs0, gs, g1, g2, g3⟩ := hI1.looks _ _ _ h
            rw [hp] at g1
            cases g1
            rw [hh1] at g2
            cases g2
            rw [hw] at g3
            obtain ⟨g4, g5⟩ := g3.split h1.length
            have tr : ∀ x y, FSim H σ1.heap G1 c d (Done H G1) x y →
                FSim H (σ1.heap.set r (.node c (dn ++ (g, .ref a') :: td))) G1 c d (Done H G1) x y :=
              fun x y h => h.of (fun _ h => h) (fun _ _ _ h => h) fun l xs _ _ hl => hlr l xs hl
            cases g5 with
            | cons _ g5 =>
              refine ⟨c, fs0, _, hp, hself, ?_⟩
              rw [hw]
              exact (g4.imp_mem fun x _ y _ => tr x y).append
                (.cons hv2 (g5.imp_mem fun x _ y _ => tr x y)))
      have hF2 : Frame H (Below H p) (· = r) (· = p) G1 σ1 G1
          { σ1 with heap := σ1.heap.set r (.node c (dn ++ (g, .ref a') :: td)) } :=
        Frame.setNode hI1 hh1
      have hpB : ¬ Below H p p := fun h => h.2 rfl
      refine advance G1 { σ1 with heap := σ1.heap.set r (.node c (dn ++ (g, .ref a') :: td)) }
        (.ref a') hI2 ?_ ((hF.weaken (fun _ h => h) (fun _ h => h.elim) fun _ h => h.elim).trans hF2)
        hself hv2 (fun f' l xs _ hf' hl => ?_) hO1
      · intro q hq hg
        obtain ⟨e1, e2, e3⟩ := hfr1 q hq hg
        refine ⟨(List.getElem?_set_ne fun e => hrB (by rw [e]; exact hq)).trans e1, e2, fun f' l xs hf' hl => ?_⟩
        exact (hlr l xs hl).trans (e3 f' l xs hf' hl)
      · exact (hlr l xs hl).trans (hF.list p f' l xs id hf' hl (.inr hpB))
    rw [List.map_cons, visitFields, hh]
    simp only [hlook]
    have hq2 := hq.2
    dsimp only at hq2
    by_cases hc : c.hasCtx = true ∧ g = .ctx
    · -- the new ctx object
      rw [if_pos hc] at hq2
      obtain ⟨a, e, ha⟩ := hq2
      subst e
      obtain ⟨hha, _⟩ := hI.ctx a d ha
      obtain ⟨m, rfl⟩ : ∃ m, n = m + 1 := ⟨n - 1, by omega⟩
      simp only [hha, visit_ctx cs m d a σ hha (isCtx_posS hpos)]
      have hno : ∀ x0, ¬ Origin H G a x0 := fun x0 h => by
        rcases h.2 with ⟨h, _⟩ | ⟨_, h⟩ <;> rw [ha] at h <;> cases h
      have hova : ov a = none := by
        cases h : ov a with
        | none => rfl
        | some k =>
          obtain ⟨x0, _, _, h1, _⟩ := hov a k h
          exact absurd h1 (hno x0)
      refine fin G { σ with over := σ.over.filter (·.1 ≠ a) } a ⟨hI.looks, hI.ctx, hI.pos, hI.orig,
        hI.seen, hI.back, hI.lists, hI.nodes, hI.len, hI.fresh⟩ hfr ?_ ?_ ⟨?_, ?_⟩
      · exact ⟨fun _ _ h => h, fun _ _ h _ => h, Nat.le_refl _, fun _ _ _ _ _ _ => rfl,
          fun _ _ _ _ _ _ => rfl, fun _ _ _ _ _ _ _ _ => rfl, fun _ h _ => .inl h, fun _ h => h⟩
      · refine ⟨rfl, ?_⟩
        dsimp only
        rw [if_pos hc]
        exact ⟨a, rfl, ha⟩
      · intro x k hk
        have hx : x ≠ a := fun e => by
          subst e
          obtain ⟨x0, _, h1, _⟩ := hP0 _ _ hk
          exact hno _ h1
        show (σ.over.filter (·.1 ≠ a)).lookup x = some k
        rw [lookup_filter_ne, if_neg hx]
        obtain ⟨f', v', hm, hr⟩ := hk
        exact hO.hit x k ⟨f', v', List.mem_cons_of_mem _ hm, hr⟩
      · intro x hx
        show (σ.over.filter (·.1 ≠ a)).lookup x = ov x
        rw [lookup_filter_ne]
        split
        · rename_i e; rw [e, hova]
        · refine hO.miss x fun k hk => ?_
          obtain ⟨f', v', hm, hf', hr⟩ := hk
          rcases List.mem_cons.1 hm with e | hm
          · cases e
            exact registered_ne_ctx hf' hc.2
          · exact hx k ⟨f', v', hm, hf', hr⟩
    · rw [if_neg hc] at hq2
      have hholds : Holds H p g v0 := ⟨c, fs0, hp, mem_withCtx hmem hc, hc⟩
      have hfs : ∀ {heap' : List Obj} {G' : Ghost} {v' : HV},
          Sim H heap' (Done H G' (childState c d g)) v0 v' →
          FSim H heap' G' c d (Done H G') (g, v0) (g, v') := fun h => by
        refine ⟨rfl, ?_⟩
        dsimp only
        rw [if_neg hc]
        exact h
      cases hq2 with
      | const k =>
        refine advance G σ _ hI hfr .refl hh (hfs (.const k)) (fun _ _ _ _ _ _ => rfl)
          (hO.congr fun x k' => ?_)
        constructor
        · rintro ⟨f', v', hm, hr⟩
          exact ⟨f', v', List.mem_cons_of_mem _ hm, hr⟩
        · rintro ⟨f', v', hm, hf', hx, hr⟩
          rcases List.mem_cons.1 hm with e | hm
          · cases e; cases hx
          · exact ⟨f', v', hm, hf', hx, hr⟩
      | @node a a0 hn0 ha =>
        obtain ⟨_, _, _, _, hha⟩ := ha.node hI
        have he : Edge H p g a0 := .field hholds hn0
        have hra : refs σ.heap (.ref a) = [a] := by simp only [refs, hha]
        obtain ⟨a', σ1, G1, e1, e2, e3, e4, e5, e6⟩ := child_ok hG hS IH hp hpos hI hfr hO hov
          (fun x k hk => by
            obtain ⟨f', v', hm, hf', hx, hr⟩ := hk
            rcases List.mem_cons.1 hm with e | hm
            · cases e
              rw [hra, List.mem_singleton] at hx
              exact ⟨a0, g, hx ▸ ha, hf', he⟩
            · obtain ⟨x0, f'', h1, h2, h3, _⟩ := hP0 x k ⟨f', v', hm, hf', hx, hr⟩
              exact ⟨x0, f'', h1, h2, h3⟩) ha he
          (fun hf => ⟨g, .ref a, List.mem_cons_self .., hf, by rw [hra]; exact List.mem_singleton.2 rfl, rfl⟩)
        simp only [hha, e1]
        refine fin G1 σ1 a' e2 e6 e3 (hfs (.node hn0 e4)) (e5.congr fun x k => ?_)
        constructor
        · intro hk
          refine ⟨?_, fun e => ?_⟩
          · obtain ⟨f', v', hm, hr⟩ := hk
            exact ⟨f', v', List.mem_cons_of_mem _ hm, hr⟩
          · subst e
            obtain ⟨x0, f', h1, h2, h3, h4⟩ := hP0 _ _ hk
            cases ha.det h1
            exact h4 (hS.exclusive _ _ _ ⟨c, fs0, hp, h2⟩ h3 _ _ he).2.symm
        · rintro ⟨⟨f', v', hm, hf', hx, hr⟩, hxa⟩
          rcases List.mem_cons.1 hm with e | hm
          · cases e
            rw [hra, List.mem_singleton] at hx
            exact absurd hx hxa
          · exact ⟨f', v', hm, hf', hx, hr⟩
      | @list l xs0 xs hl0 hl1 hx2 =>
        simp only [hl1]
        have hmr : ∀ x, x ∈ refs σ.heap (.ref l) ↔ .ref x ∈ xs := fun x => mem_refs_list hl1
        obtain ⟨ys, σ1, G1, e1, e2, e3, e4, e5, e6⟩ := items_ok hG hS IH hp hpos (f := g)
          (P0 := Pend σ.heap c td) (ov := ov) xs0 xs hI hfr hov hP0 hx2
          (fun a0 h => .item hholds hl0 h) (fun hf => hS.once p g l xs0 ⟨c, fs0, hp, hf⟩ hholds hl0)
          (hO.congr fun x k => by
            constructor
            · rintro (⟨f', v', hm, hr⟩ | ⟨hf, hx, hk⟩)
              · exact ⟨f', v', List.mem_cons_of_mem _ hm, hr⟩
              · exact ⟨g, .ref l, List.mem_cons_self .., hf, (hmr x).2 hx, hk⟩
            · rintro ⟨f', v', hm, hf', hx, hr⟩
              rcases List.mem_cons.1 hm with e | hm
              · cases e
                exact .inr ⟨hf', (hmr x).1 hx, hr⟩
              · exact .inl ⟨f', v', hm, hf', hx, hr⟩)
        simp only [e1]
        have hpB : ¬ Below H p p := fun h => h.2 rfl
        have hl2 : σ1.heap[l]? = some (.list xs) :=
          (e3.list p g l xs0 id hholds hl0 (.inr hpB)).trans hl1
        have hself : (σ1.heap.set l (.list ys))[l]? = some (.list ys) :=
          List.getElem?_set_self (List.getElem?_eq_some_iff.1 hl2).1
        have hh1 : σ1.heap[r]? = some (.node c (dn ++ (g, .ref l) :: td)) := by
          rw [← hh]
          rcases hGr with h | h
          · exact e3.node r _ _ id hh (e3.unmarked r hrl h hrB)
          · exact e3.other r p d id h hpB
        refine advance G1 { σ1 with heap := σ1.heap.set l (.list ys) } (.ref l)
          (e2.setList hG hS hp hpos hholds hl0 e4) ?_
          ((e3.weaken (fun _ h => h) (fun _ h => h.elim) fun _ h => h.elim).trans
            (Frame.setList hG e2 hholds hl0)) ?_ (hfs (.list hl0 hself e4)) ?_ e5
        · intro q hq hg
          obtain ⟨g1, g2, g3⟩ := e6 q hq hg
          obtain ⟨c', fs', hqn⟩ := hq.1.isNode hG ⟨c, fs0, hp⟩
          refine ⟨(List.getElem?_set_ne fun e => ?_).trans g1, g2, fun f' l' xs' hf' hl' => ?_⟩
          · rw [← e, hl0] at hqn; cases hqn
          · refine (List.getElem?_set_ne fun e => ?_).trans (g3 f' l' xs' hf' hl')
            subst e
            exact hq.2 (hG.lists _ _ _ _ _ _ hholds hf' hl0).1
        · exact (List.getElem?_set_ne fun e => by rw [← e, hl2] at hh1; cases hh1).trans hh1
        · intro f' l' xs' hf' hh' hl'
          refine (List.getElem?_set_ne fun e => ?_).trans (e3.list p f' l' xs' id hh' hl' (.inr hpB))
          subst e
          exact hf' (hG.lists _ _ _ _ _ _ hholds hh' hl0).2

end

end Mcpyrate.FixCtx
