import Verif.Spec.Modules
import Verif.Lemmas.GetMacros
namespace Mcpyrate.Modules
open Py GetMacros

theorem rsplit_none {n : Str} : rsplitDot n = none ↔ '.' ∉ n := by
  induction n with
  | nil => simp [rsplitDot]
  | cons c cs ih =>
    rw [rsplitDot, List.mem_cons, not_or]
    cases h : rsplitDot cs with
    | some p =>
      simp only [reduceCtorEq, false_iff, not_and]
      intro _ hn
      rw [ih.2 hn] at h; cases h
    | none =>
      dsimp only
      by_cases hc : c = '.'
      · simp [hc]
      · rw [if_neg hc]
        simp only [true_iff]
        exact ⟨Ne.symm hc, ih.1 h⟩

theorem rsplit_some {n p l : Str} : rsplitDot n = some (p, l) ↔ IsChild n p l := by
  induction n generalizing p l with
  | nil =>
    simp only [rsplitDot, IsChild, reduceCtorEq, false_iff]
    rintro ⟨h, _⟩
    simp at h
  | cons c cs ih =>
    rw [rsplitDot]
    cases h : rsplitDot cs with
    | some q =>
      obtain ⟨a, b⟩ := q
      have ha := ih.1 h
      simp only [Option.some.injEq, Prod.mk.injEq]
      constructor
      · rintro ⟨rfl, rfl⟩
        exact ⟨by rw [ha.1]; rfl, ha.2⟩
      · rintro ⟨h1, h2⟩
        cases p with
        | nil =>
          simp only [List.nil_append, List.cons.injEq] at h1
          rw [h1.2] at ha
          exact absurd (by rw [ha.1]; simp) h2
        | cons x p =>
          simp only [List.cons_append, List.cons.injEq] at h1
          have := ih.2 ⟨h1.2, h2⟩
          rw [h] at this
          simp only [Option.some.injEq, Prod.mk.injEq] at this
          exact ⟨by rw [h1.1, this.1], this.2⟩
    | none =>
      dsimp only
      have hn := rsplit_none.1 h
      by_cases hc : c = '.'
      · rw [if_pos hc]
        simp only [Option.some.injEq, Prod.mk.injEq]
        constructor
        · rintro ⟨rfl, rfl⟩; exact ⟨by rw [hc]; rfl, hn⟩
        · rintro ⟨h1, h2⟩
          cases p with
          | nil => simp only [List.nil_append, List.cons.injEq] at h1; exact ⟨rfl, h1.2⟩
          | cons x p =>
            simp only [List.cons_append, List.cons.injEq] at h1
            exact absurd (by rw [h1.2]; simp) hn
      · rw [if_neg hc]
        simp only [reduceCtorEq, false_iff]
        rintro ⟨h1, h2⟩
        cases p with
        | nil => simp only [List.nil_append, List.cons.injEq] at h1; exact hc h1.1
        | cons x p =>
          simp only [List.cons_append, List.cons.injEq] at h1
          exact absurd (by rw [h1.2]; simp) hn

theorem IsChild.unique {n p l p' l' : Str} (h : IsChild n p l) (h' : IsChild n p' l') : p = p' ∧ l = l' := by
  have a := rsplit_some.2 h
  rw [rsplit_some.2 h'] at a
  simp at a
  exact ⟨a.1.symm, a.2.symm⟩

theorem IsChild.ne {n p l : Str} (h : IsChild n p l) : p ≠ n := by
  intro e
  have := congrArg List.length h.1
  simp [e] at this

theorem isDotted_iff {P : Host} {n : Str} : IsDotted P n ↔ (splitDots n).all P.isIdent = true := by
  rw [List.all_eq_true]
  constructor
  · rintro ⟨cs, h1, rfl, h2⟩ c hc
    rw [split_join cs h1 fun c hc => (h2 c hc).2] at hc
    exact (h2 c hc).1
  · intro h
    exact ⟨splitDots n, splitDots_ne n, (join_split n).symm, fun c hc => ⟨h c hc, splitDots_nodot n c hc⟩⟩

theorem register_error {P : Host} {name file : Str} {u : Bool} {s s' : Sys} {e : Err}
    (h : register P name file u s = (.error e, s')) : s' = s := by
  unfold register at h
  dsimp only at h
  split at h
  · cases h
  · split at h
    · cases h; rfl
    · split at h
      · cases h; rfl
      · split at h
        · split at h
          · cases h; rfl
          · cases h
        · cases h

theorem register_ok {P : Host} {name file : Str} {u : Bool} {s s' : Sys} {m : Nat} (hs : s.WF)
    (h : register P name file u s = (.ok m, s')) :
    Created name file u s m s' ∧ (u = true → ∀ p l, IsChild name p l →
        ∃ i, s.modules.get p = some (.obj i) ∧ P.settable i = true) ∧
      s'.modules = s.modules.set name (.obj m) ∧ s'.next = s.next + 1 := by
  unfold register at h
  dsimp only at h
  split at h
  · rename_i hr
    cases h
    have hnd := rsplit_none.1 hr
    have hno : ∀ p l, ¬ IsChild name p l := fun p l hc => hnd (by rw [hc.1]; simp)
    refine ⟨⟨rfl, fun k => ?_, ?_, ⟨fun p l hc => absurd hc (hno p l), fun _ => ?_⟩, ?_,
      fun p l i _ hc => absurd hc (hno p l), fun i a hi _ => ?_⟩, fun _ p l hc => absurd hc (hno p l), rfl, rfl⟩
    · rw [Dict.get_set]; simp only [eq_comm]
    · simp [metadata, Dict.get_cons]
    · simp [metadata, Dict.get_cons]
    · simp [metadata, Dict.get_cons]
    · simp [hi]
  · rename_i p l hr
    have hc := rsplit_some.1 hr
    have hdot : '.' ∈ name := by rw [hc.1]; simp
    split at h
    · cases h
    · rename_i x hx
      split at h
      · cases h
      · rename_i hb
        split at h
        · rename_i hu
          unfold setAttr at h
          split at h
          · cases h
          · rename_i s2 heq
            split at heq
            · rename_i i
              split at heq
              · rename_i hset
                cases heq
                cases h
                have hlt := hs.2 p i hx
                have hne : i ≠ s.next := by omega
                refine ⟨⟨rfl, fun k => ?_, ?_, ⟨fun p' l' hc' => ?_, fun hn => absurd hdot hn⟩, ?_,
                  fun p' l' j _ hc' hj => ?_, fun j a hj hno => ?_⟩,
                  fun _ p' l' hc' => ⟨i, by rw [← (hc.unique hc').1]; exact hx, hset⟩, rfl, rfl⟩
                · rw [Dict.get_set]; simp only [eq_comm]
                · simp [metadata, Dict.get_cons, Ne.symm hne]
                · obtain ⟨rfl, rfl⟩ := hc.unique hc'
                  simp [metadata, Dict.get_cons, Ne.symm hne]
                · simp [metadata, Dict.get_cons, Ne.symm hne]
                · obtain ⟨rfl, rfl⟩ := hc.unique hc'
                  rw [hx] at hj
                  simp only [Option.some.injEq, Obj.obj.injEq] at hj
                  subst hj
                  simp [Dict.get_set]
                · by_cases hji : j = i
                  · subst hji
                    simp only [if_true, Dict.get_set, if_neg hj]
                    rw [if_neg]
                    rintro rfl
                    exact hno ⟨hu, p, hc, hx⟩
                  · simp [hji, hj]
              · cases heq
            · cases heq
        · rename_i hu
          cases h
          refine ⟨⟨rfl, fun k => ?_, ?_, ⟨fun p' l' hc' => ?_, fun hn => absurd hdot hn⟩, ?_,
            fun p' l' j hu' => absurd hu' hu, fun j a hj hno => ?_⟩,
            fun hu' => absurd hu' hu, rfl, rfl⟩
          · rw [Dict.get_set]; simp only [eq_comm]
          · simp [metadata, Dict.get_cons]
          · obtain ⟨rfl, rfl⟩ := hc.unique hc'
            simp [metadata, Dict.get_cons]
          · simp [metadata, Dict.get_cons]
          · simp [hj]

theorem register_succeeds {P : Host} {name file : Str} {u : Bool} {s : Sys} (hp : HasParent P name s)
    (hset : u = true → ∀ p l x, IsChild name p l → s.modules.get p = some x → ∃ i, x = .obj i ∧ P.settable i = true) :
    ∃ m s', register P name file u s = (.ok m, s') := by
  unfold register
  dsimp only
  cases hr : rsplitDot name with
  | none => exact ⟨_, _, rfl⟩
  | some q =>
    obtain ⟨p, l⟩ := q
    have hc := rsplit_some.1 hr
    obtain ⟨x, hx, hb⟩ := hp p l hc
    simp only [hx, hb, Bool.not_true, Bool.false_eq_true, if_false]
    cases u with
    | false => exact ⟨_, _, rfl⟩
    | true =>
      obtain ⟨i, rfl, hi⟩ := hset rfl p l x hc hx
      simp [setAttr, hi]

theorem create_eq {P : Host} {dn fn : Arg} {u : Bool} {uuid name file : Str} {s : Sys}
    (hn : Named P dn uuid name) (hf : Filed dn fn uuid file) :
    createModule P dn fn u uuid s = register P name file u s := by
  rcases hn with ⟨rfl, hne, hd⟩ | ⟨rfl, rfl⟩
  · obtain ⟨c, cs, rfl⟩ := List.exists_cons_of_ne_nil hne
    rw [isDotted_iff] at hd
    have h1 : checkName P (.str (c :: cs)) = .ok (some (c :: cs)) := by rw [checkName, if_pos hd]
    rcases hf with ⟨rfl, hfe⟩ | ⟨rfl, ⟨n, hn, rfl⟩ | ⟨hn, _⟩⟩
    · obtain ⟨d, ds, rfl⟩ := List.exists_cons_of_ne_nil hfe
      unfold createModule
      rw [h1]
      rfl
    · cases hn
      unfold createModule
      rw [h1]
      rfl
    · cases hn
  · rcases hf with ⟨rfl, hfe⟩ | ⟨rfl, ⟨n, hn, rfl⟩ | ⟨_, rfl⟩⟩
    · obtain ⟨d, ds, rfl⟩ := List.exists_cons_of_ne_nil hfe
      rfl
    · cases hn
    · rfl

theorem create_ok {P : Host} {name : Str} {filename : Arg} {u : Bool} {uuid : Str} {s s1 : Sys} {m : Nat}
    (hs : s.WF) (hne : name ≠ [])
    (h : createModule P (.str name) filename u uuid s = (.ok m, s1)) :
    (∃ file, Created name file u s m s1) ∧ (u = true → ∀ p l, IsChild name p l →
        ∃ i, s.modules.get p = some (.obj i) ∧ P.settable i = true) ∧
      s1.modules = s.modules.set name (.obj m) ∧ s1.next = s.next + 1 := by
  obtain ⟨c, cs, rfl⟩ := List.exists_cons_of_ne_nil hne
  unfold createModule at h
  split at h
  · cases h
  · cases h
  · rename_i n f hn hf
    have : n = some (c :: cs) := by
      rw [checkName] at hn
      split at hn
      · cases hn; rfl
      · cases hn
    subst this
    obtain ⟨h1, h2, h3, h4⟩ := register_ok hs h
    exact ⟨⟨_, h1⟩, h2, h3, h4⟩

theorem cleanup_removed {P : Host} {name : Str} {u : Bool} {s s1 s2 : Sys} {m : Nat}
    (hc : ∃ file, Created name file u s m s1)
    (hp : (u = true → ∀ p l, IsChild name p l →
        ∃ i, s.modules.get p = some (.obj i) ∧ P.settable i = true) ∧
      s1.modules = s.modules.set name (.obj m) ∧ s1.next = s.next + 1)
    (hk : Keeps name s1 s2) : Removed name u s2 (cleanup P (.str name) u s2) := by
  obtain ⟨f, hc⟩ := hc
  have hent : s2.modules.get name = some (.obj m) := by rw [hk.entry, hc.modules, if_pos rfl]
  have hmod : ∀ k, (s2.modules.del name).get k = if name = k then none else s2.modules.get k :=
    Dict.get_del _ hk.wf.1 _
  have hno : u = false ∨ (∀ p l, ¬ IsChild name p l) →
      Removed name u s2 { s2 with modules := s2.modules.del name } := by
    intro h
    refine ⟨by rw [hmod, if_pos rfl], fun k hkn => by rw [hmod, if_neg (Ne.symm hkn)],
      fun p l i hu hch => ?_, fun i a _ => rfl⟩
    rcases h with h | h
    · rw [h] at hu; cases hu
    · exact absurd hch (h p l)
  unfold cleanup
  simp only [hent]
  cases hu : u with
  | false => rw [hu] at hno; exact hno (.inl rfl)
  | true =>
    rw [if_pos rfl]
    cases hr : rsplitDot name with
    | none =>
      rw [hu] at hno
      exact hno (.inr fun p l hch => rsplit_none.1 hr (by rw [hch.1]; simp))
    | some q =>
      obtain ⟨p, l⟩ := q
      have hch := rsplit_some.1 hr
      obtain ⟨i, hi, hset⟩ := hp.1 hu p l hch
      have hi1 : s1.modules.get p = some (.obj i) := by rw [hc.modules, if_neg hch.ne, hi]
      have hi2 : s2.modules.get p = some (.obj i) := by rw [hk.parent p l hch, hi1]
      have hat : (s2.attrs i).get l = some (.obj m) := by
        rw [hk.attr p l i hch hi1]; exact hc.parent p l i hu hch hi
      have hg : (s2.modules.del name).get p = some (.obj i) := by
        rw [hmod, if_neg (Ne.symm hch.ne), hi2]
      have hd : (delAttr P (((s2.modules.del name).get p).getD .none) l
          { s2 with modules := s2.modules.del name }).2 =
          { s2 with modules := s2.modules.del name
                    attrs := fun j => if j = i then (s2.attrs i).del l else s2.attrs j } := by
        rw [hg]
        simp [delAttr, hset, hat]
      dsimp only
      rw [hd]
      refine ⟨by rw [hmod, if_pos rfl], fun k hkn => by rw [hmod, if_neg (Ne.symm hkn)],
        fun p' l' j _ hch' hj => ?_, fun j a hno' => ?_⟩
      · obtain ⟨rfl, rfl⟩ := hch.unique hch'
        rw [hi2] at hj
        simp only [Option.some.injEq, Obj.obj.injEq] at hj
        subst hj
        simp only [if_true]
        rw [Dict.get_del _ (hk.wf.2 i), if_pos rfl]
      · dsimp only
        by_cases hji : j = i
        · subst hji
          rw [if_pos rfl, Dict.get_del _ (hk.wf.2 j), if_neg]
          rintro rfl
          exact hno' ⟨rfl, p, hch, hi2⟩
        · rw [if_neg hji]

/-- Whatever the state is, cleaning up removes the entry and touches nothing but that and the attribute on the
parent. -/
theorem cleanup_any (P : Host) (name : Str) (u : Bool) (s : Sys) (hw : s.modules.WF) (ha : ∀ i, (s.attrs i).WF) :
    (cleanup P (.str name) u s).modules.get name = none ∧
    (∀ k, k ≠ name → (cleanup P (.str name) u s).modules.get k = s.modules.get k) ∧
    ∀ i a, ¬ (u = true ∧ ∃ p, IsChild name p a ∧ s.modules.get p = some (.obj i)) →
      ((cleanup P (.str name) u s).attrs i).get a = (s.attrs i).get a := by
  have hmod : ∀ k, (s.modules.del name).get k = if name = k then none else s.modules.get k :=
    Dict.get_del _ hw _
  have h0 : (s.modules.del name).get name = none := by rw [hmod, if_pos rfl]
  have h1 : ∀ k, k ≠ name → (s.modules.del name).get k = s.modules.get k := fun k h => by
    rw [hmod, if_neg (Ne.symm h)]
  unfold cleanup
  dsimp only
  cases hg : s.modules.get name with
  | none => exact ⟨hg, fun _ _ => rfl, fun _ _ _ => rfl⟩
  | some _ =>
    dsimp only
    cases u with
    | false => exact ⟨h0, h1, fun _ _ _ => rfl⟩
    | true =>
      rw [if_pos rfl]
      cases hr : rsplitDot name with
      | none => exact ⟨h0, h1, fun _ _ _ => rfl⟩
      | some q =>
        obtain ⟨p, l⟩ := q
        have hch := rsplit_some.1 hr
        dsimp only
        rw [h1 p hch.ne]
        cases hp : s.modules.get p with
        | none => exact ⟨h0, h1, fun _ _ _ => rfl⟩
        | some x =>
          cases x with
          | none => exact ⟨h0, h1, fun _ _ _ => rfl⟩
          | str _ => exact ⟨h0, h1, fun _ _ _ => rfl⟩
          | obj i =>
            simp only [Option.getD_some, delAttr]
            split
            · refine ⟨h0, h1, fun j a hn => ?_⟩
              dsimp only
              by_cases hji : j = i
              · subst hji
                rw [if_pos rfl, Dict.get_del _ (ha j)]
                rw [if_neg]
                rintro rfl
                exact hn ⟨trivial, p, hch, hp⟩
              · rw [if_neg hji]
            · exact ⟨h0, h1, fun _ _ _ => rfl⟩

end Mcpyrate.Modules
