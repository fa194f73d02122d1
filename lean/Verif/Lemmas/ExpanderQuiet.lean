import Verif.Lemmas.Collector
import Verif.Lemmas.ExpanderAgain
/-
A visit that returns without having applied a macro: there was no invocation.
-/
namespace Mcpyrate.Expander
open Py Collector

variable {υ : Type} {E : Env υ}

/-- If the visit of `x` returns and no macro was applied, then there is no invocation in `x`, and nothing has happened. -/
def Quiet (E : Env υ) (vis : Val → X υ Val) (s : St υ) (x : Val) : Prop :=
  ∀ r s', vis x s = some (.ok r, s') → s'.log = s.log → s' = s ∧ NoInvocations E s.world x

theorem Frame.mid {s s1 s' : St υ} (h : Frame s s1) (h' : Frame s1 s') (hl : s'.log = s.log) : s1.log = s.log := by
  obtain ⟨l, h1⟩ := h.log
  obtain ⟨m, h2⟩ := h'.log
  rw [hl, h1, List.append_assoc] at h2
  have : l ++ m = [] := by simpa using h2
  rw [h1, (List.append_eq_nil_iff.mp this).1, List.append_nil]

section
variable {vis : Val → X υ Val} {s : St υ}

theorem genericItems_quiet (hf : ∀ t, Pres Frame (vis t)) : ∀ (xs : List Val) (_ : ∀ x ∈ xs, x.isAST = true → Quiet E vis s x)
    (ys : List Val) (s' : St υ), genericItems vis xs s = some (.ok ys, s') → s'.log = s.log →
    s' = s ∧ ∀ x ∈ xs, x.isAST = true → NoInvocations E s.world x := by
  intro xs
  induction xs with
  | nil =>
    intro _ ys s' h _
    have h' : (some (.ok [], s) : Option (Except Exc (List Val) × St υ)) = some (.ok ys, s') := h
    cases h'; exact ⟨rfl, by simp⟩
  | cons x xs ih =>
    intro hv ys s' h hl
    have ih := ih fun y hy => hv y (by simp [hy])
    have hfx := genericItems_pres (R := Frame) frame_rel.toStep hf xs
    unfold genericItems at h
    cases hx : x.isAST with
    | true =>
      rw [hx, if_pos rfl] at h
      obtain ⟨y, s1, h1, k1⟩ := bind_ok h
      obtain ⟨zs, s2, h2, k2⟩ := bind_ok k1
      have h' : (some (.ok (Markers.spliceResult y ++ zs), s2) : Option (Except Exc (List Val) × St υ)) = some (.ok ys, s') := k2
      cases h'
      obtain ⟨rfl, hn⟩ := hv x (by simp) hx _ _ h1 ((hf x s _ _ h1).mid (hfx s1 _ _ h2) hl)
      obtain ⟨rfl, hr⟩ := ih _ _ h2 hl
      refine ⟨rfl, fun z hz hza => ?_⟩
      rcases List.mem_cons.mp hz with rfl | hz
      · exact hn
      · exact hr z hz hza
    | false =>
      rw [hx, if_neg (by simp)] at h
      obtain ⟨zs, s2, h2, k3⟩ := bind_ok h
      have h' : (some (.ok (x :: zs), s2) : Option (Except Exc (List Val) × St υ)) = some (.ok ys, s') := k3
      cases h'
      obtain ⟨rfl, hr⟩ := ih _ _ h2 hl
      refine ⟨rfl, fun z hz hza => ?_⟩
      rcases List.mem_cons.mp hz with rfl | hz
      · rw [hx] at hza; cases hza
      · exact hr z hz hza

theorem genericFields_quiet (hf : ∀ t, Pres Frame (vis t)) (c : Cls) (l : Loc) : ∀ (fs : Fields)
    (_ : ∀ x ∈ childNodes (.node c l fs), Quiet E vis s x) (fs' : Fields) (s' : St υ),
    genericFields vis fs s = some (.ok fs', s') → s'.log = s.log →
    s' = s ∧ ∀ x ∈ childNodes (.node c l fs), NoInvocations E s.world x := by
  intro fs
  induction fs with
  | nil =>
    intro _ ys s' h _
    have h' : (some (.ok [], s) : Option (Except Exc Fields × St υ)) = some (.ok ys, s') := h
    cases h'; exact ⟨rfl, by simp [childNodes]⟩
  | cons p fs ih =>
    intro hv fs' s' h hl
    obtain ⟨f, v⟩ := p
    have ih := ih fun x hx => hv x (by
      simp only [childNodes, List.mem_flatMap] at hx ⊢
      obtain ⟨q, hq, hx⟩ := hx
      exact ⟨q, List.mem_cons_of_mem _ hq, hx⟩)
    have hfx := genericFields_pres (R := Frame) frame_rel.toStep hf fs
    have hsplit : ∀ x, x ∈ childNodes (.node c l ((f, v) :: fs)) →
        x ∈ childNodes (.node c l [(f, v)]) ∨ x ∈ childNodes (.node c l fs) := by
      intro x hx
      simp only [childNodes, List.flatMap_cons, List.mem_append, List.flatMap_nil, List.append_nil] at hx ⊢
      exact hx
    cases v with
    | const k =>
      obtain ⟨zs, s2, h2, k4⟩ := bind_ok (m := genericFields vis fs) h
      have h' : (some (.ok ((f, Val.const k) :: zs), s2) : Option (Except Exc Fields × St υ)) = some (.ok fs', s') := k4
      cases h'
      obtain ⟨rfl, hr⟩ := ih _ _ h2 hl
      exact ⟨rfl, fun x hx => (hsplit x hx).elim (by simp [childNodes]) (hr x)⟩
    | list xs =>
      obtain ⟨ys, s1, h1, k5⟩ := bind_ok (m := genericItems vis xs) h
      obtain ⟨zs, s2, h2, k6⟩ := bind_ok k5
      have h' : (some (.ok ((f, Val.list ys) :: zs), s2) : Option (Except Exc Fields × St υ)) = some (.ok fs', s') := k6
      cases h'
      have hl1 := (genericItems_pres (R := Frame) frame_rel.toStep hf xs s _ _ h1).mid (hfx s1 _ _ h2) hl
      obtain ⟨rfl, hn⟩ := genericItems_quiet hf xs (fun x hx hxa => hv x (by simp [childNodes, hx, hxa])) _ _ h1 hl1
      obtain ⟨rfl, hr⟩ := ih _ _ h2 hl
      exact ⟨rfl, fun x hx => (hsplit x hx).elim (fun h => by simp [childNodes] at h; exact hn x h.1 h.2) (hr x)⟩
    | node c' l' gs =>
      obtain ⟨y, s1, h1, k7⟩ := bind_ok (m := vis (.node c' l' gs)) h
      obtain ⟨zs, s2, h2, k8⟩ := bind_ok k7
      have h' : (some (.ok (if y.isNone then zs else (f, y) :: zs), s2) : Option (Except Exc Fields × St υ)) =
        some (.ok fs', s') := k8
      cases h'
      obtain ⟨rfl, hn⟩ := hv (.node c' l' gs) (by simp [childNodes]) _ _ h1 ((hf _ s _ _ h1).mid (hfx s1 _ _ h2) hl)
      obtain ⟨rfl, hr⟩ := ih _ _ h2 hl
      exact ⟨rfl, fun x hx => (hsplit x hx).elim (fun h => by simp [childNodes] at h; subst h; exact hn) (hr x)⟩

theorem visitElts_quiet (hf : ∀ t, Pres Frame (vis t)) : ∀ (xs : List Val) (_ : ∀ x ∈ xs, Quiet E vis s x)
    (ys : List Val) (s' : St υ), visitElts vis xs s = some (.ok ys, s') → s'.log = s.log →
    s' = s ∧ ∀ x ∈ xs, NoInvocations E s.world x := by
  intro xs
  induction xs with
  | nil =>
    intro _ ys s' h _
    have h' : (some (.ok [], s) : Option (Except Exc (List Val) × St υ)) = some (.ok ys, s') := h
    cases h'; exact ⟨rfl, by simp⟩
  | cons x xs ih =>
    intro hv ys s' h hl
    obtain ⟨y, s1, h1, k16⟩ := bind_ok (m := vis x) h
    obtain ⟨zs, s2, h2, k17⟩ := bind_ok k16
    have h' : (some (.ok (y :: zs), s2) : Option (Except Exc (List Val) × St υ)) = some (.ok ys, s') := k17
    cases h'
    obtain ⟨rfl, hn⟩ := hv x (by simp) _ _ h1
      ((hf x s _ _ h1).mid (visitElts_pres (R := Frame) frame_rel.toStep hf xs s1 _ _ h2) hl)
    obtain ⟨rfl, hr⟩ := ih (fun y hy => hv y (by simp [hy])) _ _ h2 hl
    exact ⟨rfl, by simpa using ⟨hn, hr⟩⟩

end

theorem visit_quiet (s : St υ) : ∀ (n : Nat) (t : Val), t.isTree = true → WellFormed t → Shaped t → Quiet E (visit E n) s t := by
  intro n
  induction n with
  | zero => intro t _ _ _ r s' h; cases h
  | succ n ih =>
    intro t ht hw hsh r s' h hl
    have hf : ∀ t, Pres Frame (visit E n t) := visit_pres frame_rel E.all_true n
    change visitBody E (visit E n) t s = _ at h
    unfold visitBody at h
    rw [run_get] at h
    cases hcond : (noBindings s.world || isDone t) with
    | true =>
      rw [hcond, if_pos rfl] at h
      have h' : (some (.ok t, s) : Option (Except Exc Val × St υ)) = some (.ok r, s') := h
      cases h'
      refine ⟨rfl, fun u hu hi => ?_⟩
      obtain ⟨k, hk⟩ := must_of_open hu hi
      rw [Bool.or_eq_true] at hcond
      rcases hcond with hc | hc
      · obtain ⟨v, -, hi⟩ := hk; exact noBindings_no hc hi.invocation
      · exact done_no hc k hk
    | false =>
      rw [hcond, if_neg (by simp)] at h
      simp only [Bool.or_eq_false_iff] at hcond
      have hch : ∀ x ∈ childNodes t, Quiet E (visit E n) s x := by
        intro x hx
        have hxa := childNodes_isAST hx
        exact ih x (by cases x <;> simp_all [Val.isAST, Val.isTree]) (hw.child hx) (hsh.child hcond.2 hx)
      cases t with
      | const => cases ht
      | list xs =>
        have hxs : xs.all Val.isAST = true := ht
        obtain ⟨ys, s1, h1, h2⟩ := bind_ok (m := visitElts (visit E n) xs) h
        have h2' : (some (.ok (if (Markers.flattenV ys).isEmpty then .none else .list (Markers.flattenV ys)), s1) :
            Option (Except Exc Val × St υ)) = some (.ok r, s') := h2
        cases h2'
        obtain ⟨rfl, hn⟩ := visitElts_quiet hf xs (fun x hx => hch x
          (List.mem_filter.mpr ⟨hx, List.all_eq_true.mp hxs x hx⟩)) _ _ h1 hl
        exact ⟨rfl, NoInvocations.node not_invocation_list fun u hu => hn u (List.mem_filter.mp hu).1⟩
      | node c l fs =>
        change visitNode E (visit E n) _ s = _ at h
        by_cases hi : Invocation E s.world (.node c l fs)
        · exfalso
          obtain ⟨k, id, a, c', hinv⟩ := invocation_invokes hw (fun hk => by
            have := hsh.self hcond.2
            obtain ⟨l, fs, e⟩ := isK_eq hk
            cases e
            simp only [partsOk] at this
            split at this
            · rw [Bool.and_eq_true] at this
              obtain ⟨xs, hx, -⟩ := nodesAt_eq this.2
              simp [hasField, hx]
            · cases this) hi
          obtain ⟨hb, hap, hbad⟩ := visitNode_invokes (vis := visit E n) hw hinv
          by_cases hc : BadCall c'
          · rw [hbad hc] at h; cases h
          · obtain ⟨e, l, hfr, -⟩ := applies_first (hap hc) hb h
            simp [fresh, hl] at hfr
        · rw [visitNode_other hw hi] at h
          split at h
          · rename_i hk
            cases h
            refine ⟨rfl, NoInvocations.node hi fun u hu => ?_⟩
            have := hsh.self hcond.2
            obtain ⟨l, fs, e⟩ := isK_eq hk
            cases e
            simp only [partsOk, List.all_eq_true] at this
            intro v hv hiv
            obtain ⟨k, hk⟩ := must_of_open hv hiv
            exact ctx_noMust (this u hu) k hk
          · obtain ⟨fs', s1, h1, g⟩ := bind_ok (m := genericFields (visit E n) fs) h
            have h' : (some (.ok (.node c l fs'), s1) : Option (Except Exc Val × St υ)) = some (.ok r, s') := g
            cases h'
            obtain ⟨rfl, hn⟩ := genericFields_quiet hf c l fs hch _ _ h1 hl
            exact ⟨rfl, NoInvocations.node hi hn⟩

theorem Runs.quiet {mode : Mode} {t v : Val} {s s' : St υ} (h : Runs E mode t s (.ok v) s') (ht : t.isTree = true)
    (hw : WellFormed t) (hs : Shaped t) (hf : fresh s s' = []) : NoInvocations E s.world t := by
  have key : ∀ b n r s1, visit E n t { s with recursive := b } = some (.ok r, s1) → s1.log = s'.log → NoInvocations E s.world t := by
    intro b n r s1 hr hl
    obtain ⟨l, hlog⟩ := (visit_pres frame_rel E.all_true n t { s with recursive := b } _ _ hr).log
    refine (visit_quiet { s with recursive := b } n t ht hw hs r s1 hr ?_).2
    simp only at hlog
    simp only [fresh, ← hl, hlog] at hf ⊢
    simp at hf
    rw [hf, List.append_nil]
  obtain ⟨n, h⟩ := h
  cases mode with
  | current => exact key s.recursive n v s' h rfl
  | recursively =>
    unfold visitAs visitMode withMode at h
    obtain ⟨s0, h0, rfl⟩ := bracket_some h
    exact key true n v s0 h0 rfl
  | once =>
    unfold visitAs visitMode withMode at h
    obtain ⟨s0, h0, rfl⟩ := bracket_some h
    obtain ⟨r, s1, k1, k2⟩ := bind_ok (m := visit E n t) h0
    have h2' : (some (.ok (done r), s1) : Option (Except Exc Val × St υ)) = some (.ok v, s0) := k2
    cases h2'
    exact key false n r _ k1 rfl

end Mcpyrate.Expander
