import Verif.Lemmas.ExpanderFixpoint
/-
A visit of a tree without invocations, if it returns, returns the same tree, and nothing happens.
-/
namespace Mcpyrate.Expander
open Py

variable {υ : Type} {E : Env υ}

/-- If the visit of `x` returns, it returns `x`, and the state is unchanged. -/
def Inert (vis : Val → X υ Val) (s : St υ) (x : Val) : Prop := ∀ r s', vis x s = some (.ok r, s') → r = x ∧ s' = s

section
variable {vis : Val → X υ Val} {s : St υ}

theorem genericItems_inert : ∀ (xs : List Val) (_ : ∀ x ∈ xs, x.isAST = true → Inert vis s x) (ys : List Val) (s' : St υ),
    genericItems vis xs s = some (.ok ys, s') → ys = xs ∧ s' = s := by
  intro xs
  induction xs with
  | nil =>
    intro _ ys s' h
    have h' : (some (.ok [], s) : Option (Except Exc (List Val) × St υ)) = some (.ok ys, s') := h
    cases h'; exact ⟨rfl, rfl⟩
  | cons x xs ih =>
    intro hv ys s' h
    have ih := ih fun y hy => hv y (by simp [hy])
    unfold genericItems at h
    cases hx : x.isAST with
    | true =>
      rw [hx, if_pos rfl] at h
      obtain ⟨y, s1, h1, k1⟩ := bind_ok h
      obtain ⟨rfl, rfl⟩ := hv x (by simp) hx _ _ h1
      obtain ⟨zs, s2, h2, k2⟩ := bind_ok k1
      obtain ⟨rfl, rfl⟩ := ih _ _ h2
      have h' : (some (.ok (Markers.spliceResult y ++ zs), s2) : Option (Except Exc (List Val) × St υ)) = some (.ok ys, s') := k2
      cases h'
      rw [spliceResult_node hx]; exact ⟨rfl, rfl⟩
    | false =>
      rw [hx, if_neg (by simp)] at h
      obtain ⟨zs, s2, h2, k3⟩ := bind_ok h
      obtain ⟨rfl, rfl⟩ := ih _ _ h2
      have h' : (some (.ok (x :: zs), s2) : Option (Except Exc (List Val) × St υ)) = some (.ok ys, s') := k3
      cases h'; exact ⟨rfl, rfl⟩

theorem genericFields_inert (c : Cls) (l : Loc) : ∀ (fs : Fields) (_ : ∀ x ∈ childNodes (.node c l fs), Inert vis s x)
    (fs' : Fields) (s' : St υ), genericFields vis fs s = some (.ok fs', s') → fs' = fs ∧ s' = s := by
  intro fs
  induction fs with
  | nil =>
    intro _ ys s' h
    have h' : (some (.ok [], s) : Option (Except Exc Fields × St υ)) = some (.ok ys, s') := h
    cases h'; exact ⟨rfl, rfl⟩
  | cons p fs ih =>
    intro hv fs' s' h
    obtain ⟨f, v⟩ := p
    have ih := ih fun x hx => hv x (by
      simp only [childNodes, List.mem_flatMap] at hx ⊢
      obtain ⟨q, hq, hx⟩ := hx
      exact ⟨q, List.mem_cons_of_mem _ hq, hx⟩)
    cases v with
    | const k =>
      obtain ⟨zs, s2, h2, k4⟩ := bind_ok (m := genericFields vis fs) h
      obtain ⟨rfl, rfl⟩ := ih _ _ h2
      have h' : (some (.ok ((f, Val.const k) :: zs), s2) : Option (Except Exc Fields × St υ)) = some (.ok fs', s') := k4
      cases h'; exact ⟨rfl, rfl⟩
    | list xs =>
      obtain ⟨ys, s1, h1, k5⟩ := bind_ok (m := genericItems vis xs) h
      obtain ⟨rfl, rfl⟩ := genericItems_inert xs (fun x hx hxa => hv x (by simp [childNodes, hx, hxa])) _ _ h1
      obtain ⟨zs, s2, h2, k6⟩ := bind_ok k5
      obtain ⟨rfl, rfl⟩ := ih _ _ h2
      have h' : (some (.ok ((f, Val.list ys) :: zs), s2) : Option (Except Exc Fields × St υ)) = some (.ok fs', s') := k6
      cases h'; exact ⟨rfl, rfl⟩
    | node c' l' gs =>
      obtain ⟨y, s1, h1, k7⟩ := bind_ok (m := vis (.node c' l' gs)) h
      obtain ⟨rfl, rfl⟩ := hv (.node c' l' gs) (by simp [childNodes]) _ _ h1
      obtain ⟨zs, s2, h2, k8⟩ := bind_ok k7
      obtain ⟨rfl, rfl⟩ := ih _ _ h2
      have h' : (some (.ok ((f, Val.node c' l' gs) :: zs), s2) : Option (Except Exc Fields × St υ)) = some (.ok fs', s') := k8
      cases h'; exact ⟨rfl, rfl⟩

theorem genericVisit_inert {t : Val} (hv : ∀ x ∈ childNodes t, Inert vis s x) : Inert (genericVisit vis) s t := by
  intro r s' h
  cases t with
  | const | list => cases h
  | node c l fs =>
    obtain ⟨fs', s1, h1, g⟩ := bind_ok (m := genericFields vis fs) h
    obtain ⟨rfl, rfl⟩ := genericFields_inert c l fs hv _ _ h1
    have h' : (some (.ok (.node c l fs'), s1) : Option (Except Exc Val × St υ)) = some (.ok r, s') := g
    cases h'; exact ⟨rfl, rfl⟩

/-- A node that is not an invocation. -/
theorem visitNode_inert {t : Val} (hn : ¬ Invocation E s.world t) (hv : ∀ x ∈ childNodes t, Inert vis s x) :
    Inert (visitNode E vis) s t := by
  have hgen := genericVisit_inert hv
  have hdec : (t.isK .FunctionDef = true ∨ t.isK .ClassDef = true) → Inert (visitDecorated E vis) s t := by
    intro hk r s' h
    unfold visitDecorated at h
    obtain ⟨items, s1, h1, k9⟩ := bind_ok h
    obtain ⟨h1', rfl⟩ := ofExcept_ok h1
    rw [run_get] at k9
    obtain ⟨ds, s2, h2, k10⟩ := bind_ok k9
    obtain ⟨hds, rfl⟩ := ofExcept_ok h2
    obtain ⟨v, hv, hl⟩ := ok_bind.mp h1'
    rw [asList_ok] at hl; subst hl
    have hi := attr_ok.mp hv
    obtain ⟨e1, e2⟩ := detect_sound (by decide) hds
    rw [splitLast_none.mpr] at k10
    · exact hgen r s' k10
    · intro q hq
      obtain ⟨c, hqc, hqn⟩ := e2 q hq
      cases hq2 : q.2 with
      | false => rfl
      | true =>
        cases hqc
        exact absurd (.decorator hk hi (by rw [← e1]; exact List.mem_map_of_mem hq) (hqn.mp hq2)) hn
  intro r s' h
  unfold visitNode at h
  split at h
  · rename_i l fs
    change visitSubscript E vis _ s = _ at h
    unfold visitSubscript at h
    obtain ⟨c, s1, h1, k11⟩ := bind_ok h
    obtain ⟨h1', rfl⟩ := ofExcept_ok h1
    obtain ⟨d, s2, h2, k12⟩ := bind_ok k11
    obtain ⟨hd, rfl⟩ := ofExcept_ok h2
    rw [run_get] at k12
    split at k12
    · rename_i hm
      exact absurd (.expr rfl (attr_ok.mp h1') ((names_iff (by decide) hd).mp hm)) hn
    · exact hgen r s' k12
  · rename_i l fs
    change visitWith E vis _ s = _ at h
    unfold visitWith at h
    obtain ⟨items, s1, h1, k13⟩ := bind_ok h
    obtain ⟨h1', rfl⟩ := ofExcept_ok h1
    rw [run_get] at k13
    obtain ⟨ds, s2, h2, k14⟩ := bind_ok k13
    obtain ⟨hds, rfl⟩ := ofExcept_ok h2
    obtain ⟨v, hv, hl⟩ := ok_bind.mp h1'
    rw [asList_ok] at hl; subst hl
    have hi := attr_ok.mp hv
    obtain ⟨e1, e2⟩ := detect_sound (by decide) hds
    rw [splitFirst_none.mpr] at k14
    · exact hgen r s' k14
    · intro q hq
      obtain ⟨c, hqc, hqn⟩ := e2 q hq
      cases hq2 : q.2 with
      | false => rfl
      | true =>
        exact absurd (.block rfl hi (by rw [← e1]; exact List.mem_map_of_mem hq)
          (attr_ok.mp hqc) (hqn.mp hq2)) hn
  · exact hdec (.inr rfl) r s' h
  · exact hdec (.inl rfl) r s' h
  · rename_i l fs
    change visitName E vis _ s = _ at h
    unfold visitName at h
    obtain ⟨i, s1, h1, k15⟩ := bind_ok h
    obtain ⟨h1', rfl⟩ := ofExcept_ok h1
    rw [run_get] at k15
    have hm : ismacrocall E s1.world ((asName i).map (·, ([] : List Val))) .name = false := by
      cases ha : asName i with
      | none => rfl
      | some k =>
        have hik := asName_some.mp ha
        subst hik
        cases hm : ismacrocall E s1.world (some (k, [])) .name with
        | false => exact hm
        | true =>
          obtain ⟨h1, id, h2, h3⟩ := ismacrocall_name.mp hm
          exact absurd (.name rfl (attr_ok.mp h1') h1 h2 h3) hn
    simp only [hm] at k15
    have h' : (some (.ok (.node (.py .Name) l fs), s1) : Option (Except Exc Val × St υ)) = some (.ok r, s') := k15
    cases h'; exact ⟨rfl, rfl⟩
  · exact hgen r s' h

theorem visitElts_inert : ∀ (xs : List Val) (_ : ∀ x ∈ xs, Inert vis s x) (ys : List Val) (s' : St υ),
    visitElts vis xs s = some (.ok ys, s') → ys = xs ∧ s' = s := by
  intro xs
  induction xs with
  | nil =>
    intro _ ys s' h
    have h' : (some (.ok [], s) : Option (Except Exc (List Val) × St υ)) = some (.ok ys, s') := h
    cases h'; exact ⟨rfl, rfl⟩
  | cons x xs ih =>
    intro hv ys s' h
    obtain ⟨y, s1, h1, k16⟩ := bind_ok (m := vis x) h
    obtain ⟨rfl, rfl⟩ := hv x (by simp) _ _ h1
    obtain ⟨zs, s2, h2, k17⟩ := bind_ok k16
    obtain ⟨rfl, rfl⟩ := ih (fun y hy => hv y (by simp [hy])) _ _ h2
    have h' : (some (.ok (y :: zs), s2) : Option (Except Exc (List Val) × St υ)) = some (.ok ys, s') := k17
    cases h'; exact ⟨rfl, rfl⟩

end

theorem visit_inert (s : St υ) : ∀ (n : Nat) (t : Val), t.isTree = true → t ≠ .list [] → NoInvocations E s.world t →
    Inert (visit E n) s t := by
  intro n
  induction n with
  | zero => intro t _ _ _ r s' h; cases h
  | succ n ih =>
    intro t ht hne hn r s' h
    change visitBody E (visit E n) t s = _ at h
    unfold visitBody at h
    rw [run_get] at h
    cases hcond : (noBindings s.world || isDone t) with
    | true =>
      rw [hcond, if_pos rfl] at h
      have h' : (some (.ok t, s) : Option (Except Exc Val × St υ)) = some (.ok r, s') := h
      cases h'; exact ⟨rfl, rfl⟩
    | false =>
      rw [hcond, if_neg (by simp)] at h
      simp only [Bool.or_eq_false_iff] at hcond
      have hch : ∀ x ∈ childNodes t, Inert (visit E n) s x := by
        intro x hx
        have hxa := childNodes_isAST hx
        exact ih x (by cases x <;> simp_all [Val.isAST, Val.isTree]) (by rintro rfl; cases hxa) (hn.child hcond.2 hx)
      cases t with
      | const => cases ht
      | list xs =>
        have hxs : xs.all Val.isAST = true := ht
        obtain ⟨ys, s1, h1, h2⟩ := bind_ok (m := visitElts (visit E n) xs) h
        obtain ⟨rfl, rfl⟩ := visitElts_inert xs (fun x hx => hch x
          (List.mem_filter.mpr ⟨hx, List.all_eq_true.mp hxs x hx⟩)) _ _ h1
        have h2' : (some (.ok (if (Markers.flattenV ys).isEmpty then .none else .list (Markers.flattenV ys)), s1) :
            Option (Except Exc Val × St υ)) = some (.ok r, s') := h2
        rw [flattenV_nodes hxs] at h2'
        cases h2'
        cases ys with
        | nil => exact absurd rfl hne
        | cons => exact ⟨rfl, rfl⟩
      | node c l fs => exact visitNode_inert (hn _ (.refl _ hcond.2)) hch r s' h

end Mcpyrate.Expander
