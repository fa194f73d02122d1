import Verif.Spec.Bunch
namespace Mcpyrate.Bunch
open Py
set_option linter.unusedSectionVars false
variable {ν : Type} [DecidableEq ν]

theorem nodup_iff_ne {l : List Nat} :
    l.Nodup ↔ ∀ i j : Nat, i < j → j < l.length → l[i]? ≠ l[j]? := by
  rw [List.Nodup, List.pairwise_iff_getElem]
  constructor
  · intro h i j hij hj
    rw [List.getElem?_eq_getElem hj, List.getElem?_eq_getElem (by omega)]
    simpa using h i j (by omega) hj hij
  · intro h i j hi hj hij
    have := h i j hij hj
    rw [List.getElem?_eq_getElem hj, List.getElem?_eq_getElem hi] at this
    simpa using this

theorem nodup_inj {l : List Nat} (hl : l.Nodup) {i j : Nat} {r : Nat} (hi : l[i]? = some r)
    (hj : l[j]? = some r) : i = j := by
  have key := nodup_iff_ne.1 hl
  have l1 := (List.getElem?_eq_some_iff.1 hi).1
  have l2 := (List.getElem?_eq_some_iff.1 hj).1
  rcases Nat.lt_trichotomy i j with h | h | h
  · exact absurd (hi.trans hj.symm) (key i j h l2)
  · exact h
  · exact absurd (hj.trans hi.symm) (key j i h l1)

theorem dataOf_abs {s : Heap ν} (hs : Unshared s) (h : Nat) :
    (dataOf s h).map Prod.snd = (abs s)[h]? := by
  unfold dataOf abs
  rw [List.getElem?_map]
  cases hb : s.bunches[h]? with
  | none => simp
  | some r =>
    have hr : r < s.cells.length := hs.2 r (List.mem_of_getElem? hb)
    simp [List.getElem?_eq_getElem hr]

theorem dataOf_some {s : Heap ν} {h r d} (hd : dataOf s h = some (r, d)) :
    s.bunches[h]? = some r ∧ s.cells[r]? = some d := by
  unfold dataOf at hd
  split at hd
  · simp at hd
  · rename_i r' hb
    split at hd
    · simp at hd
    · rename_i d' hc
      simp only [Option.some.injEq, Prod.mk.injEq] at hd
      obtain ⟨rfl, rfl⟩ := hd
      exact ⟨hb, hc⟩

theorem put_unshared {s : Heap ν} (hs : Unshared s) (r : Nat) (d : Data ν) : Unshared (put s r d) :=
  ⟨hs.1, by simpa [put] using hs.2⟩

theorem put_abs {s : Heap ν} (hs : Unshared s) {h r : Nat} {d : Data ν}
    (hd : dataOf s h = some (r, d)) (d' : Data ν) : abs (put s r d') = (abs s).set h d' := by
  obtain ⟨hb, hc⟩ := dataOf_some hd
  have hr : r < s.cells.length := hs.2 r (List.mem_of_getElem? hb)
  apply List.ext_getElem?
  intro i
  simp only [abs, put, List.getElem?_map, List.getElem?_set, List.length_map]
  by_cases hi : h = i
  · subst hi
    have hl : h < s.bunches.length := (List.getElem?_eq_some_iff.1 hb).1
    rw [if_pos rfl, if_pos hl, hb]
    simp [hr]
  · simp only [if_neg hi]
    cases hbi : s.bunches[i]? with
    | none => simp
    | some r' =>
      have : r ≠ r' := by
        rintro rfl
        exact hi (nodup_inj hs.1 hb hbi)
      simp [this]

theorem alloc_unshared {s : Heap ν} (hs : Unshared s) (d : Data ν) : Unshared (alloc s d).1 := by
  refine ⟨?_, ?_⟩
  · simp only [alloc]
    rw [List.nodup_append]
    refine ⟨hs.1, by simp, ?_⟩
    intro a ha b hb
    simp at hb
    have := hs.2 a ha
    omega
  · intro r hr
    simp only [alloc, List.mem_append, List.mem_singleton, List.length_append, List.length_singleton] at *
    rcases hr with hr | hr
    · have := hs.2 r hr; omega
    · omega

theorem abs_extend {s : Heap ν} (hs : Unshared s) (d : Data ν) :
    (s.bunches.map fun r => ((s.cells ++ [d])[r]?).getD []) = abs s := by
  apply List.map_congr_left
  intro r hr
  have := hs.2 r hr
  simp [List.getElem?_append, this]

theorem alloc_abs {s : Heap ν} (hs : Unshared s) (d : Data ν) :
    abs (alloc s d).1 = abs s ++ [d] ∧ (alloc s d).2 = (abs s).length := by
  refine ⟨?_, by simp [alloc, abs]⟩
  simp only [abs, alloc, List.map_append, List.map_cons, List.map_nil]
  rw [abs_extend hs]
  simp [abs]

theorem del_of_get_none (d : Data ν) (k : Key) (h : Dict.get d k = none) : Dict.del d k = d := by
  induction d with
  | nil => rfl
  | cons p d ih =>
    obtain ⟨k2, v2⟩ := p
    rw [Dict.get_cons] at h
    split at h
    · simp at h
    · rename_i hk
      simp [Dict.del, hk, ih h]

theorem set_same {α} (m : List α) (h : Nat) (d : α) (hd : m[h]? = some d) : m.set h d = m := by
  apply List.ext_getElem?
  intro i
  simp only [List.getElem?_set]
  split
  · rename_i he
    subst he
    rw [hd]
    have := (List.getElem?_eq_some_iff.1 hd).1
    simp [this]
  · rfl

theorem put_same {s : Heap ν} {h r : Nat} {d : Data ν} (hd : dataOf s h = some (r, d)) :
    put s r d = s := by
  have := (dataOf_some hd).2
  unfold put
  rw [set_same _ _ _ this]

/-- Concrete single-Bunch operations, in the form used by the specification. -/
theorem step_target {reserved : List String} {s : Heap ν} {o : Op ν} {h : Nat}
    (ht : target o = some h) :
    step reserved s o =
      (dataOf s h).map fun (r, d) =>
        (put s r (dictMethod reserved d o).1, (dictMethod reserved d o).2) := by
  cases hd : dataOf s h with
  | none =>
    cases o <;> simp only [target, Option.some.injEq, reduceCtorEq] at ht <;> subst ht <;>
      simp [step, hd]
  | some p =>
    obtain ⟨r, d⟩ := p
    have hp := put_same hd
    cases o <;> simp only [target, Option.some.injEq, reduceCtorEq] at ht <;> subst ht <;>
      simp only [step, hd, dictMethod, Option.map_some]
    case getattr name =>
      split
      · simp [hp]
      · cases hg : Dict.get d (Key.str name) <;> simp [hp]
    case setattr name v => split <;> simp [hp]
    case delattr name => cases hg : Dict.get d (Key.str name) <;> simp [hp]
    case contains => simp [hp]
    case len => simp [hp]
    case iter => simp [hp]
    case getitem k => cases hg : Dict.get d k <;> simp [hp]
    case delitem k => cases hg : Dict.get d k <;> simp [hp]
    case get k dflt => cases hg : Dict.get d k <;> cases dflt <;> simp [hp]
    case pop k dflt =>
      cases hg : Dict.get d k with
      | none => cases dflt <;> simp [del_of_get_none d k hg, hp]
      | some v => simp
    case popitem => cases hg : d.getLast? <;> simp [hp]
    case update kw => split <;> simp [hp]
    case setdefault k v => cases hg : Dict.get d k <;> simp [hp]

theorem step_refines {reserved : List String} {s : Heap ν} (hs : Unshared s) (o : Op ν) :
    match step reserved s o with
    | none => specStep reserved (abs s) o = none
    | some (s', a) => Unshared s' ∧ specStep reserved (abs s) o = some (abs s', a) := by
  cases ht : target o with
  | some h =>
    have hda := dataOf_abs hs h
    rw [step_target (reserved := reserved) (s := s) ht]
    cases hd : dataOf s h with
    | none => rw [hd] at hda; simp [specStep, ht, ← hda]
    | some p =>
      obtain ⟨r, d⟩ := p
      rw [hd] at hda
      simp only [Option.map_some] at hda
      simp only [specStep, ht, ← hda, Option.map_some]
      exact ⟨put_unshared hs _ _, by rw [put_abs hs hd]⟩
  | none =>
    cases o <;> simp only [target, reduceCtorEq] at ht
    case new kw =>
      simp only [step, specStep, target]
      by_cases hk : "self" ∈ Dict.keys kw
      · simp [hk, hs]
      · have := alloc_abs hs kw.toData
        simp [hk, alloc_unshared hs, this.1, this.2]
    case copy h =>
      have hda := dataOf_abs hs h
      simp only [step, specStep, target]
      cases hd : dataOf s h with
      | none => rw [hd] at hda; simp [← hda]
      | some p =>
        obtain ⟨r, d⟩ := p
        rw [hd] at hda
        simp only [← hda, Option.map_some]
        by_cases hk : kwOk d = true
        · have := alloc_abs hs d
          simp only [hk, if_true]
          exact ⟨alloc_unshared hs _, by rw [this.1, this.2]⟩
        · simp only [hk]
          exact ⟨hs, rfl⟩
    case replace h o =>
      have hda := dataOf_abs hs h
      have hdb := dataOf_abs hs o
      simp only [step, specStep, target]
      cases hd : dataOf s h with
      | none => rw [hd] at hda; simp [← hda]
      | some p =>
        obtain ⟨r, d⟩ := p
        rw [hd] at hda
        cases he : dataOf s o with
        | none => rw [he] at hdb; simp [← hdb]
        | some q =>
          obtain ⟨r2, d2⟩ := q
          rw [he] at hdb
          simp only [← hda, ← hdb, Option.map_some]
          by_cases hk : kwOk d2 = true
          · simp only [hk, if_true]
            obtain ⟨hb, -⟩ := dataOf_some hd
            refine ⟨⟨?_, ?_⟩, ?_⟩
            · rw [nodup_iff_ne]
              intro i j hij hj
              simp only [List.length_set] at hj
              simp only [List.getElem?_set]
              have hfresh : ∀ k : Nat, s.bunches[k]? ≠ some s.cells.length := by
                intro k hk
                have := hs.2 _ (List.mem_of_getElem? hk)
                omega
              have hnd := nodup_iff_ne.1 hs.1 i j hij hj
              have hi : i < s.bunches.length := by omega
              by_cases h1 : h = i
              · subst h1
                have h2 : h ≠ j := by omega
                simp [h2, hi]
                exact fun e => hfresh j e.symm
              · by_cases h2 : h = j
                · subst h2
                  simp [h1, hj]
                  exact hfresh i
                · simpa [h1, h2] using hnd
            · intro x hx
              simp only [List.length_append, List.length_singleton]
              rcases List.mem_or_eq_of_mem_set hx with hx | hx
              · have := hs.2 x hx; omega
              · omega
            · congr 2
              apply List.ext_getElem?
              intro i
              simp only [abs, List.getElem?_map, List.getElem?_set, List.length_map]
              by_cases h1 : h = i
              · subst h1
                have hl := (List.getElem?_eq_some_iff.1 hb).1
                simp [hl]
              · simp only [h1, if_false]
                cases hbi : s.bunches[i]? with
                | none => simp
                | some r' =>
                  have := hs.2 r' (List.mem_of_getElem? hbi)
                  simp [List.getElem?_append, this]
          · simp [hk, hs]
    case eq h o =>
      have hda := dataOf_abs hs h
      have hdb := dataOf_abs hs o
      simp only [step, specStep, target]
      cases hd : dataOf s h with
      | none => rw [hd] at hda; simp [← hda]
      | some p =>
        rw [hd] at hda
        cases he : dataOf s o with
        | none => rw [he] at hdb; simp [← hdb]
        | some q =>
          rw [he] at hdb
          simp only [Option.map_some] at hda hdb
          simp [← hda, ← hdb, hs]

theorem run_refines {reserved : List String} (ops : List (Op ν)) {s : Heap ν} (hs : Unshared s) :
    match run reserved s ops with
    | none => specRun reserved (abs s) ops = none
    | some (s', as) => Unshared s' ∧ specRun reserved (abs s) ops = some (abs s', as) := by
  induction ops generalizing s with
  | nil => exact ⟨hs, rfl⟩
  | cons o ops ih =>
    have h1 := step_refines (reserved := reserved) hs o
    simp only [run, specRun]
    cases hst : step reserved s o with
    | none => rw [hst] at h1; simp [h1]
    | some p =>
      obtain ⟨s', a⟩ := p
      rw [hst] at h1
      have h2 := ih h1.1
      simp only [h1.2]
      cases hr : run reserved s' ops with
      | none => rw [hr] at h2; simp [h2]
      | some q =>
        rw [hr] at h2
        simp [h2.2, h2.1]

theorem length_le_of_subset {κ : Type} [DecidableEq κ] {a b : List κ} (ha : a.Nodup) (h : ∀ k ∈ a, k ∈ b) :
    a.length ≤ b.length := by
  induction a generalizing b with
  | nil => simp
  | cons x xs ih =>
    have hx : x ∈ b := h x (by simp)
    have hn := List.nodup_cons.1 ha
    have := ih hn.2 (b := b.erase x) fun k hk =>
      (List.mem_erase_of_ne (fun e => hn.1 (by rw [← e]; exact hk))).2 (h k (by simp [hk]))
    rw [List.length_erase_of_mem hx] at this
    have hp : 0 < b.length := List.length_pos_of_mem hx
    simp only [List.length_cons]
    omega

theorem subset_of_length {κ : Type} [DecidableEq κ] {a b : List κ} (ha : a.Nodup) (h : ∀ k ∈ a, k ∈ b)
    (hl : a.length = b.length) : ∀ k ∈ b, k ∈ a := by
  intro k hk
  refine Decidable.byContradiction fun hn => ?_
  have := length_le_of_subset ha (b := b.erase k) fun x hx =>
    (List.mem_erase_of_ne (fun e => hn (by rw [← e]; exact hx))).2 (h x hx)
  rw [List.length_erase_of_mem hk] at this
  have hp : 0 < b.length := List.length_pos_of_mem hk
  omega

theorem dictEq_iff {a b : Data ν} (ha : Dict.WF a) (hb : Dict.WF b) :
    dictEq a b = true ↔ ∀ k, Dict.get a k = Dict.get b k := by
  have hlen : ∀ d : Data ν, (Dict.keys d).length = d.length := fun d => by simp [Dict.keys]
  unfold dictEq
  simp only [Bool.and_eq_true, List.all_eq_true, beq_iff_eq]
  constructor
  · rintro ⟨hl, hall⟩ k
    cases hk : Dict.get a k with
    | some v => exact (hall _ (Dict.get_mem a k v hk)).symm
    | none =>
      have hsub : ∀ k ∈ Dict.keys a, k ∈ Dict.keys b := by
        intro k hk
        obtain ⟨v, hv⟩ := Option.isSome_iff_exists.1 ((Dict.mem_keys a k).1 hk)
        have : Dict.get b k = some v := hall _ (Dict.get_mem a k v hv)
        exact (Dict.mem_keys b k).2 (by rw [this]; rfl)
      have hback := subset_of_length ha hsub (by rw [hlen, hlen, hl])
      refine ((Dict.get_eq_none b k).2 fun hkb => ?_).symm
      exact (Dict.get_eq_none a k).1 hk (hback k hkb)
  · intro h
    have hsub : ∀ {d e : Data ν}, (∀ k, Dict.get d k = Dict.get e k) → ∀ k ∈ Dict.keys d, k ∈ Dict.keys e := by
      intro d e h k hk
      exact (Dict.mem_keys e k).2 (by rw [← h k]; exact (Dict.mem_keys d k).1 hk)
    have h1 := length_le_of_subset ha (hsub h)
    have h2 := length_le_of_subset hb (hsub fun k => (h k).symm)
    rw [hlen, hlen] at h1 h2
    exact ⟨by omega, fun p hp => by rw [← h p.1]; exact Dict.mem_get a ha p.1 p.2 hp⟩

theorem toData_WF {kw : Kw ν} (h : Dict.WF kw) : Dict.WF kw.toData := by
  have : Dict.keys kw.toData = (Dict.keys kw).map Key.str := by
    simp [Kw.toData, Dict.keys, Function.comp_def]
  unfold Dict.WF at *
  rw [this, List.Nodup, List.pairwise_map]
  exact List.Pairwise.imp (fun hne e => hne (by cases e; rfl)) h

theorem put_WF {s : Heap ν} (hs : ∀ d ∈ s.cells, Dict.WF d) (r : Nat) {d : Data ν} (hd : Dict.WF d) :
    ∀ e ∈ (put s r d).cells, Dict.WF e := by
  intro e he
  rcases List.mem_or_eq_of_mem_set he with h | h
  · exact hs e h
  · rw [h]; exact hd

theorem append_WF {cells : List (Data ν)} (hs : ∀ d ∈ cells, Dict.WF d) {d : Data ν} (hd : Dict.WF d) :
    ∀ e ∈ cells ++ [d], Dict.WF e := by
  intro e he
  rcases List.mem_append.1 he with h | h
  · exact hs e h
  · rw [List.mem_singleton.1 h]; exact hd

theorem step_WF {reserved : List String} {s s' : Heap ν} {o : Op ν} {a : Ans ν} (hs : ∀ d ∈ s.cells, Dict.WF d)
    (ho : callable o) (h : step reserved s o = some (s', a)) : ∀ d ∈ s'.cells, Dict.WF d := by
  have hwf : ∀ {k r d}, dataOf s k = some (r, d) → Dict.WF d := fun hd =>
    hs _ (List.mem_of_getElem? (dataOf_some hd).2)
  cases o <;> simp only [step] at h <;> (repeat' split at h) <;>
    first
    | (cases h; done)
    | (obtain ⟨rfl, rfl⟩ := Prod.mk.inj (Option.some.inj h); first
        | exact hs
        | exact append_WF hs (toData_WF ho)
        | exact append_WF hs (hwf (by assumption))
        | exact put_WF hs _ (Dict.WF_set _ _ _ (hwf (by assumption)))
        | exact put_WF hs _ (Dict.WF_del _ _ (hwf (by assumption)))
        | exact put_WF hs _ (Dict.WF_update _ _ (hwf (by assumption)))
        | exact put_WF hs _ List.nodup_nil)

theorem run_WF {reserved : List String} {ops : List (Op ν)} {s s' : Heap ν} {as : List (Ans ν)}
    (hs : ∀ d ∈ s.cells, Dict.WF d) (ho : ∀ o ∈ ops, callable o) (h : run reserved s ops = some (s', as)) :
    ∀ d ∈ s'.cells, Dict.WF d := by
  induction ops generalizing s as with
  | nil => cases h; exact hs
  | cons o os ih =>
    simp only [run] at h
    split at h
    · cases h
    · rename_i hst
      split at h
      · cases h
      · rename_i hr
        cases h
        exact ih (step_WF hs (ho o (by simp)) hst) (fun o h => ho o (by simp [h])) hr

end Mcpyrate.Bunch
