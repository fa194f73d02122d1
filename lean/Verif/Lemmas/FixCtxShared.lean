import Verif.Lemmas.FixCtxVisit
/-
`fix_ctx` on shared graphs: the result, read as a tree.
-/
namespace Mcpyrate.FixCtx
open Py

variable {H : List Obj} {rank : Nat → Nat} {root : Nat} {cs : Bool}

theorem mapF_cons {g : HV → Option Val} {f : F} {v : HV} {fs : List (F × HV)} {gs : Fields} :
    mapF g ((f, v) :: fs) = some gs ↔ ∃ u us, g v = some u ∧ mapF g fs = some us ∧ gs = (f, u) :: us := by
  rw [mapF]
  cases g v with
  | none => simp
  | some u =>
    cases mapF g fs with
    | none => simp
    | some us => simp [eq_comm]

theorem mapL_cons {α β : Type} {g : α → Option β} {x : α} {xs : List α} {ys : List β} :
    mapL g (x :: xs) = some ys ↔ ∃ u us, g x = some u ∧ mapL g xs = some us ∧ ys = u :: us := by
  rw [mapL]
  cases g x with
  | none => simp
  | some u =>
    cases mapL g xs with
    | none => simp
    | some us => simp [eq_comm]

theorem mapF_append {g : HV → Option Val} {fs gs : List (F × HV)} {us vs : Fields}
    (h : mapF g fs = some us) (h' : mapF g gs = some vs) : mapF g (fs ++ gs) = some (us ++ vs) := by
  induction fs generalizing us with
  | nil => cases h; exact h'
  | cons q fs ih =>
    obtain ⟨f, v⟩ := q
    obtain ⟨u, us', h1, h2, rfl⟩ := mapF_cons.1 h
    exact mapF_cons.2 ⟨u, us' ++ vs, h1, ih h2, rfl⟩

theorem mapF_lookup {g : HV → Option Val} {fs : List (F × HV)} {us : Fields} (h : mapF g fs = some us)
    (f : F) : (us.lookup f).isNone = (fs.lookup f).isNone := by
  induction fs generalizing us with
  | nil => cases h; rfl
  | cons q fs ih =>
    obtain ⟨f', v⟩ := q
    obtain ⟨u, us', h1, h2, rfl⟩ := mapF_cons.1 h
    rw [List.lookup_cons, List.lookup_cons]
    split
    · rfl
    · exact ih h2

theorem mapF_mem {g : HV → Option Val} {fs : List (F × HV)} {us : Fields} (h : mapF g fs = some us)
    {f : F} {v : HV} (hm : (f, v) ∈ fs) : ∃ u, g v = some u ∧ (f, u) ∈ us := by
  induction fs generalizing us with
  | nil => cases hm
  | cons q fs ih =>
    obtain ⟨f', v'⟩ := q
    obtain ⟨u, us', h1, h2, rfl⟩ := mapF_cons.1 h
    rcases List.mem_cons.1 hm with e | hm
    · cases e; exact ⟨u, h1, List.mem_cons_self ..⟩
    · obtain ⟨u', h3, h4⟩ := ih h2 hm
      exact ⟨u', h3, List.mem_cons_of_mem _ h4⟩

theorem mapL_mem {α β : Type} {g : α → Option β} {xs : List α} {ys : List β} (h : mapL g xs = some ys)
    {x : α} (hm : x ∈ xs) : ∃ u, g x = some u ∧ u ∈ ys := by
  induction xs generalizing ys with
  | nil => cases hm
  | cons y xs ih =>
    obtain ⟨u, us', h1, h2, rfl⟩ := mapL_cons.1 h
    rcases List.mem_cons.1 hm with e | hm
    · cases e; exact ⟨u, h1, List.mem_cons_self ..⟩
    · obtain ⟨u', h3, h4⟩ := ih h2 hm
      exact ⟨u', h3, List.mem_cons_of_mem _ h4⟩

theorem unfold_node {n p : Nat} {c : Cls} {fs : List (F × HV)} {t : Val}
    (hp : H[p]? = some (.node c fs)) (h : unfold H n (.ref p) = some t) :
    ∃ m gs, n = m + 1 ∧ mapF (unfold H m) fs = some gs ∧ t = .node c {} gs := by
  cases n with
  | zero => cases h
  | succ m =>
    simp only [unfold, hp, Option.map_eq_some_iff] at h
    obtain ⟨gs, h1, h2⟩ := h
    exact ⟨m, gs, rfl, h1, h2.symm⟩

theorem unfold_list {n l : Nat} {xs : List HV} {t : Val}
    (hp : H[l]? = some (.list xs)) (h : unfold H n (.ref l) = some t) :
    ∃ m us, n = m + 1 ∧ mapL (unfold H m) xs = some us ∧ t = .list us := by
  cases n with
  | zero => cases h
  | succ m =>
    simp only [unfold, hp, Option.map_eq_some_iff] at h
    obtain ⟨gs, h1, h2⟩ := h
    exact ⟨m, gs, rfl, h1, h2.symm⟩

/-- A finished object, read as a tree, is the tree-level result. -/
theorem unfold_done {G : Ghost} {σ : St} (hI : Inv H root G σ) (n : Nat) :
    ∀ o p d t, G o = some (.done p d) → unfold H n (.ref p) = some t →
      unfold σ.heap (n + 1) (.ref o) = some (tmap out d t) := by
  induction n using Nat.strongRecOn with
  | _ n ih =>
    intro o p d t hg hu
    obtain ⟨c, fs0, fs, h0, h1, h2⟩ := hI.looks o p d hg
    obtain ⟨m, gs, rfl, hgs, rfl⟩ := unfold_node h0 hu
    have hctx : ∀ a, G a = some (.ctx d) → unfold σ.heap (m + 1) (.ref a) = some (mk d []) := by
      intro a ha
      simp only [unfold, (hI.ctx a d ha).1, mapF, Option.map_some, mk]
    have fields : ∀ (xs0 xs : List (F × HV)) (us : Fields),
        All2 (FSim H σ.heap G c d (Done H G)) xs0 xs → mapF (unfold H m) xs0 = some us →
        mapF (unfold σ.heap (m + 1)) xs = some (tmapF out (out d c {} gs) us) := by
      intro xs0 xs us h
      induction h generalizing us with
      | nil => intro h; cases h; rfl
      | @cons q0 q _ _ hq _ ihx =>
        obtain ⟨f, v0⟩ := q0
        obtain ⟨f', v⟩ := q
        have e : f' = f := hq.1
        subst e
        intro h
        obtain ⟨u, us', e1, e2, rfl⟩ := mapF_cons.1 h
        have hrest := ihx us' e2
        by_cases hc : c.hasCtx = true ∧ f' = .ctx
        · have hq2 := hq.2
          dsimp only at hq2
          rw [if_pos hc] at hq2
          obtain ⟨a, rfl, ha⟩ := hq2
          refine mapF_cons.2 ⟨_, _, hctx a ha, hrest, ?_⟩
          cases u <;> simp [tmapF, out, hc]
        · have hq2 := hq.2
          dsimp only at hq2
          rw [if_neg hc] at hq2
          have hleaf : ∀ w, (out d c {} gs).leaf f' w = none := fun w => if_neg hc
          cases hq2 with
          | const k =>
            obtain ⟨m', rfl⟩ : ∃ m', m = m' + 1 := by
              cases m with
              | zero => cases e1
              | succ m' => exact ⟨m', rfl⟩
            cases e1
            exact mapF_cons.2 ⟨_, _, rfl, hrest, by simp [tmapF, hleaf]⟩
          | @node a a0 hn ha =>
            obtain ⟨c', fs', hn⟩ := hn
            have hi := ih m (Nat.lt_succ_self m) a a0 _ u ha.2 e1
            obtain ⟨m', gs', rfl, _, rfl⟩ := unfold_node hn e1
            refine mapF_cons.2 ⟨_, _, hi, hrest, ?_⟩
            rw [tmapF, hleaf]
            rfl
          | @list l xs0 xs hl0 hl1 hx =>
            obtain ⟨m', ts, rfl, hts, rfl⟩ := unfold_list hl0 e1
            refine mapF_cons.2 ⟨.list (tmapL out (childState c d f') ts), _, ?_, hrest, ?_⟩
            · simp only [unfold, hl1, Option.map_eq_some_iff]
              refine ⟨_, ?_, rfl⟩
              clear hl0 hl1 e1 h
              induction hx generalizing ts with
              | nil => cases hts; rfl
              | cons hy _ ihy =>
                obtain ⟨w, ws, g1, g2, rfl⟩ := mapL_cons.1 hts
                have hr := ihy ws g2
                cases hy with
                | const k =>
                  obtain ⟨m'', rfl⟩ : ∃ m'', m' = m'' + 1 := by
                    cases m' with
                    | zero => cases g1
                    | succ m'' => exact ⟨m'', rfl⟩
                  cases g1
                  exact mapL_cons.2 ⟨_, _, rfl, hr, rfl⟩
                | @ref a a0 ha =>
                  obtain ⟨c', fs', hn⟩ := ha.1
                  have hi := ih m' (by omega) a a0 _ w ha.2 g1
                  obtain ⟨m'', gs', rfl, _, rfl⟩ := unfold_node hn g1
                  exact mapL_cons.2 ⟨_, _, hi, hr, rfl⟩
            · rw [tmapF, hleaf]
              rfl
    have hlk := mapF_lookup hgs .ctx
    show unfold σ.heap (m + 1 + 1) (.ref o) = _
    rw [unfold]
    simp only [h1]
    rw [tmap]
    refine congrArg (Option.map (Val.node c {})) (a₂ := some _) ?_
    unfold withCtx at h2
    split at h2
    · rename_i hc
      rw [hc.2] at hlk
      obtain ⟨fs', z, rfl, hlen⟩ : ∃ fs' z, fs = fs' ++ [z] ∧ fs0.length = fs'.length := by
        have hl := h2.length
        rw [List.length_append] at hl
        have hne : fs ≠ [] := fun e => by rw [e] at hl; simp at hl
        refine ⟨fs.dropLast, fs.getLast hne, (List.dropLast_concat_getLast hne).symm, ?_⟩
        rw [List.length_dropLast, ← hl]
        simp
      obtain ⟨h3, h4⟩ := h2.split hlen
      cases h4 with
      | cons hz _ =>
        obtain ⟨f, v⟩ := z
        have hz1 : f = .ctx := hz.1
        subst hz1
        have hz2 := hz.2
        dsimp only at hz2
        rw [if_pos ⟨hc.1, rfl⟩] at hz2
        obtain ⟨a, rfl, ha⟩ := hz2
        refine mapF_append (fields fs0 fs' gs h3 hgs) ?_
        have : (out d c {} gs).extra = [(.ctx, mk d [])] := if_pos ⟨hc.1, hlk⟩
        rw [this]
        exact mapF_cons.2 ⟨_, _, hctx a ha, rfl, rfl⟩
    · rename_i hc
      have : (out d c {} gs).extra = [] := if_neg fun h => hc ⟨h.1, by
        have h2 := h.2
        rw [hlk] at h2
        exact Option.isNone_iff_eq_none.1 h2⟩
      rw [this, List.append_nil]
      exact fields fs0 fs gs h2 hgs

theorem At.trans {d d' d'' : K} {t s u : Val} (h : At d t d' s) (h' : At d' s d'' u) : At d t d'' u := by
  induction h with
  | refl => exact h'
  | field h1 h2 _ ih => exact .field h1 h2 (ih h')
  | item h1 h2 h3 _ ih => exact .item h1 h2 h3 (ih h')
  | elt h1 h2 _ ih => exact .elt h1 h2 (ih h')

/-- The contexts that the code uses are those that the positions require. -/
theorem posS_pos (hG : Graph H rank) {N : Nat} {t : Val} (hu : unfold H N (.ref root) = some t)
    (ht : TargetsOk t) {d : K} {o : Nat} (h : PosS H root d o) :
    Pos H root d o ∧ ∃ n s, unfold H n (.ref o) = some s ∧ At .Load t d s := by
  induction h with
  | root => exact ⟨.root, N, t, hu, .refl _ _⟩
  | @child d p f a c fs _ he hp ih =>
    obtain ⟨h1, n, s, h2, h3⟩ := ih
    obtain ⟨m, gs, rfl, hgs, rfl⟩ := unfold_node hp h2
    have htgt : d = .Load ∨ isTarget c = true := by
      by_cases hd : d = .Load
      · exact .inl hd
      · exact .inr (ht d _ h3 hd rfl)
    have hnc : ¬ (c.hasCtx = true ∧ f = .ctx) := by
      cases he with
      | field h _ =>
        obtain ⟨_, _, h, _, hn⟩ := h
        rw [hp] at h
        cases h
        exact hn
      | item h _ _ =>
        obtain ⟨_, _, h, _, hn⟩ := h
        rw [hp] at h
        cases h
        exact hn
    have hcs := childState_eq c d f htgt hnc
    refine ⟨hcs ▸ .child h1 he hp, ?_⟩
    rw [hcs]
    obtain ⟨c', fs', hn⟩ := he.right hG
    cases he with
    | field h _ =>
      obtain ⟨_, _, h, hm, _⟩ := h
      rw [hp] at h
      cases h
      obtain ⟨u, hu', hmu⟩ := mapF_mem hgs hm
      obtain ⟨_, gs', _, _, rfl⟩ := unfold_node hn hu'
      exact ⟨m, _, hu', h3.trans (.field hmu rfl (.refl _ _))⟩
    | item h hl hx =>
      obtain ⟨_, _, h, hm, _⟩ := h
      rw [hp] at h
      cases h
      obtain ⟨u, hu', hmu⟩ := mapF_mem hgs hm
      obtain ⟨m', us, rfl, hus, rfl⟩ := unfold_list hl hu'
      obtain ⟨w, hw, hmw⟩ := mapL_mem hus hx
      obtain ⟨_, gs', _, _, rfl⟩ := unfold_node hn hw
      exact ⟨m', _, hw, h3.trans (.item hmu hmw rfl (.refl _ _))⟩

/-- The initial state. -/
theorem inv_start : Inv H root (fun _ => none) { heap := H } where
  looks _ _ _ h := by cases h
  ctx _ _ h := by cases h
  pos _ _ _ h := by cases h
  orig _ _ _ h := by cases h
  seen _ _ _ _ _ h := by cases h
  back _ _ _ h := by cases h
  lists l xs h := ⟨xs, h⟩
  nodes o c fs h := ⟨fs, h⟩
  len := Nat.le_refl _
  fresh _ _ := rfl

/-- `fix_ctx` on a shared graph, read as a tree, is `fix_ctx` of the tree. -/
theorem fixCtxHeap_tmap (hG : Graph H rank) (hS : Sharing cs H root) {n : Nat} {t : Val}
    (hu : unfold H n (.ref root) = some t) (hn : IsNode H root) (ht : TargetsOk t) {fuel : Nat}
    (hf : rank root + 2 ≤ fuel) :
    ∃ r' heap', fixCtxHeap cs fuel H root = some (r', heap') ∧
      unfold heap' (n + 1) (.ref r') = some (tmap out .Load t) := by
  have hS' : Share H cs root := ⟨hS.exclusive, hS.once, fun o d d' h h' =>
    hS.contexts o d d' (posS_pos hG hu ht h).1 (posS_pos hG hu ht h').1⟩
  obtain ⟨r', σ', G', h1, h2, _, h3, _⟩ := visit_ok hG hS' fuel root hf (fun _ => none) { heap := H } root
    .Load inv_start ⟨hn, .inl ⟨rfl, rfl⟩⟩ .root
    (fun q _ _ => ⟨rfl, List.not_mem_nil, fun _ _ _ _ h => h⟩) (fun x k _ h => by cases h)
  refine ⟨r', σ'.heap, ?_, unfold_done h2 n r' root .Load t h3 hu⟩
  rw [fixCtxHeap, h1]
  rfl

end Mcpyrate.FixCtx
