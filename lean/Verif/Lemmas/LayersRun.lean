import Verif.Lemmas.LayersVisit
/-
From the relation to runs of the expander.
-/
namespace Mcpyrate.Expander.Layers
open Py

variable {υ : Type} {E : Env υ} {w : World υ} {b : Bool}

structure Reaches (E : Env υ) (w : World υ) (s s' : St υ) : Prop where
  frame : Frame s s'
  world : s'.world = w
  tidy : TidyMacros E (fresh s s')

theorem Reaches.trans {s s1 s2 : St υ} (h : Reaches E w s s1) (h' : Reaches E w s1 s2) : Reaches E w s s2 :=
  ⟨h.frame.trans h'.frame, h'.world, (tidyMacros_trans h.frame h'.frame).mpr ⟨h.tidy, h'.tidy⟩⟩

theorem Reaches.refl {s : St υ} (h : s.world = w) : Reaches E w s s := ⟨frame_refl _, h, tidyMacros_self _⟩

theorem OkS.reaches {s s' : St υ} (h : OkS w b s) (hr : Reaches E w s s') : OkS w b s' := h.frame hr.frame hr.world

def DnAt (E : Env υ) (w : World υ) (b : Bool) (x y : Val) : Prop :=
  ∀ s, OkS w b s → ∃ n s', visit E n x s = some (.ok y, s') ∧ Reaches E w s s'

theorem items_dn {R : Val → Val → Prop} {xs ys : List Val} (h : GenL R xs ys) :
    (∀ x y, x ∈ xs → x.isAST = true → R x y → DnAt E w b x y) →
    ∀ s, OkS w b s → ∃ n s', genericItems (visit E n) xs s = some (.ok ys, s') ∧ Reaches E w s s' := by
  induction h with
  | nil => intro _ s hs; exact ⟨0, s, rfl, .refl hs.world⟩
  | other hx _ ih =>
    intro hv s hs
    obtain ⟨n, s', h1, h2⟩ := ih (fun x y hx => hv x y (by simp [hx])) s hs
    refine ⟨n, s', ?_, h2⟩
    unfold genericItems
    rw [hx, if_neg (by simp), run_bind h1]
    rfl
  | item hx hr _ ih =>
    intro hv s hs
    obtain ⟨n, s1, h1, h2⟩ := hv _ _ (by simp) hx hr s hs
    obtain ⟨m, s2, h3, h4⟩ := ih (fun x y hx => hv x y (by simp [hx])) s1 (hs.reaches h2)
    refine ⟨max n m, s2, ?_, h2.trans h4⟩
    unfold genericItems
    rw [hx, if_pos rfl, run_bind (visit_mono E (Nat.le_max_left n m) _ _ _ h1),
      run_bind (genericItems_le (visit_mono E (Nat.le_max_right n m)) _ _ _ h3)]
    rfl

theorem fields_dn {R : Val → Val → Prop} {fs fs' : Fields} (c : Cls) (l : Loc) (h : GenF R fs fs') :
    (∀ x y, x ∈ childNodes (.node c l fs) → R x y → DnAt E w b x y) →
    ∀ s, OkS w b s → ∃ n s', genericFields (visit E n) fs s = some (.ok fs', s') ∧ Reaches E w s s' := by
  have hrest : ∀ {p : F × Val} {fs : Fields} {x}, x ∈ childNodes (.node c l fs) → x ∈ childNodes (.node c l (p :: fs)) := by
    intro p fs x hx
    simp only [childNodes, List.mem_flatMap] at hx ⊢
    obtain ⟨q, hq, hx⟩ := hx
    exact ⟨q, List.mem_cons_of_mem _ hq, hx⟩
  induction h with
  | nil => intro _ s hs; exact ⟨0, s, rfl, .refl hs.world⟩
  | const _ ih =>
    intro hv s hs
    obtain ⟨n, s', h1, h2⟩ := ih (fun x y hx => hv x y (hrest hx)) s hs
    refine ⟨n, s', ?_, h2⟩
    simp only [genericFields]
    rw [run_bind h1]
    rfl
  | list hl _ ih =>
    intro hv s hs
    obtain ⟨n, s1, h1, h2⟩ := items_dn hl (fun x y hx hxa => hv x y (by simp [childNodes, hx, hxa])) s hs
    obtain ⟨m, s2, h3, h4⟩ := ih (fun x y hx => hv x y (hrest hx)) s1 (hs.reaches h2)
    refine ⟨max n m, s2, ?_, h2.trans h4⟩
    simp only [genericFields]
    rw [run_bind (genericItems_le (visit_mono E (Nat.le_max_left n m)) _ _ _ h1),
      run_bind (genericFields_le (visit_mono E (Nat.le_max_right n m)) _ _ _ h3)]
    rfl
  | @node f v v' gs gs' hva hr hn _ ih =>
    intro hv s hs
    cases v with
    | const | list => cases hva
    | node c' l' hs' =>
    obtain ⟨n, s1, h1, h2⟩ := hv (.node c' l' hs') v' (by simp [childNodes]) hr s hs
    obtain ⟨m, s2, h3, h4⟩ := ih (fun x y hx => hv x y (hrest hx)) s1 (hs.reaches h2)
    refine ⟨max n m, s2, ?_, h2.trans h4⟩
    simp only [genericFields]
    rw [run_bind (visit_mono E (Nat.le_max_left n m) _ _ _ h1),
      run_bind (genericFields_le (visit_mono E (Nat.le_max_right n m)) _ _ _ h3), hn]
    rfl
  | @deleted f v v' gs gs' hva hr hn _ ih =>
    intro hv s hs
    cases v with
    | const | list => cases hva
    | node c' l' hs' =>
    obtain ⟨n, s1, h1, h2⟩ := hv (.node c' l' hs') v' (by simp [childNodes]) hr s hs
    obtain ⟨m, s2, h3, h4⟩ := ih (fun x y hx => hv x y (hrest hx)) s1 (hs.reaches h2)
    refine ⟨max n m, s2, ?_, h2.trans h4⟩
    simp only [genericFields]
    rw [run_bind (visit_mono E (Nat.le_max_left n m) _ _ _ h1),
      run_bind (genericFields_le (visit_mono E (Nat.le_max_right n m)) _ _ _ h3), hn]
    rfl

theorem elts_dn {R : Val → Val → Prop} {xs ys : List Val} (h : All2 R xs ys) :
    (∀ x y, x ∈ xs → R x y → DnAt E w b x y) →
    ∀ s, OkS w b s → ∃ n s', visitElts (visit E n) xs s = some (.ok ys, s') ∧ Reaches E w s s' := by
  induction h with
  | nil => intro _ s hs; exact ⟨0, s, rfl, .refl hs.world⟩
  | cons hr _ ih =>
    intro hv s hs
    obtain ⟨n, s1, h1, h2⟩ := hv _ _ (by simp) hr s hs
    obtain ⟨m, s2, h3, h4⟩ := ih (fun x y hx => hv x y (by simp [hx])) s1 (hs.reaches h2)
    refine ⟨max n m, s2, ?_, h2.trans h4⟩
    unfold visitElts
    rw [run_bind (visit_mono E (Nat.le_max_left n m) _ _ _ h1),
      run_bind (visitElts_le (visit_mono E (Nat.le_max_right n m)) _ _ _ h3)]
    rfl

/-- Expansions can be visited if need be. -/
def After (E : Env υ) (w : World υ) (b : Bool) (A : Val → Val → Prop) : Prop :=
  ∀ e r, e.isTree = true → Tidy e → A e r → (b = true → DnAt E w b e r) ∧ (b = false → r = e)

theorem call_dn {A : Val → Val → Prop} (hA : After E w b A) {t c e r : Val} {k : String} {i : Nat} {a : MArgs} {s : St υ}
    (hs : OkS w b s) (ht : Tidy t) (hi : Invokes E w t k i a c) (hbc : ¬ BadCall c) (he : Exp E i a e)
    (hf : Finish E A t k a.synt c e r) :
    ∃ n s', visitNode E (visit E n) t s = some (.ok r, s') ∧ Reaches E w s s' := by
  have hi' : Invokes E s.world t k i a c := by rw [hs.world]; exact hi
  have happ : ∀ n, visitNode E (visit E n) t s = (expandIn E (visit E n) k a >>= afterExpand E (visit E n) t k a.synt c) s :=
    fun n => (visitNode_invokes (vis := visit E n) ht.1.1 hi').2.1 hbc
  have hge := exp_good he
  obtain ⟨v, hv, hte, hfx⟩ := he
  obtain ⟨s1, heq, f1, w1, htd⟩ := expandIn_eq hs (invokes_bound hi) hv hfx
  have hr1 : Reaches E w s s1 := ⟨f1, w1, htd.mpr ⟨(by obtain ⟨q, hq, _⟩ := hv; exact ⟨q, hq⟩), fun v' hv' => by rw [gives_det hv' hv]; exact hte⟩⟩
  have hs1 := hs.reaches hr1
  have hAe : ∀ {r}, e.isNone = false → A e r → (b = true → DnAt E w b e r) ∧ (b = false → r = e) := by
    intro r hn har
    rcases hge.shape with rfl | htr
    · cases hn
    · exact hA e r htr hge.tidy har
  -- the expansion
  have hmain : a.synt ≠ .name → ∀ {r'}, (e.isNone = true → r' = e) → (e.isNone = false → A e r') →
      ∃ n s0, expandIn E (visit E n) k a s = some (.ok r', s0) ∧ Reaches E w s s0 := by
    intro hy r' h1 h2
    cases hn : e.isNone with
    | true =>
      refine ⟨0, s1, ?_, hr1⟩
      rw [heq, if_neg (by simp [hn]), h1 hn]
    | false =>
      obtain ⟨h3, h4⟩ := hAe hn (h2 hn)
      cases hb : b with
      | false =>
        refine ⟨0, s1, ?_, hr1⟩
        rw [heq, if_neg (by simp [hb]), h4 hb]
      | true =>
        obtain ⟨n, s2, h5, h6⟩ := h3 hb s1 hs1
        refine ⟨n, s2, ?_, hr1.trans h6⟩
        rw [heq, if_pos ⟨hn, hy, hb⟩, h5]
  have hname : a.synt = .name → ∀ n, expandIn E (visit E n) k a s = some (.ok e, s1) := by
    intro hy n
    rw [heq, if_neg (by simp [hy])]
  have hstmt : ∀ {r'}, (a.synt = .block ∨ a.synt = .decorator) → (e.isNone = true → r' = e) → (e.isNone = false → A e r') →
      insertCoverage E.filename k r' (locOf (if a.synt = .block then t else c)) = .ok r →
      ∃ n s', visitNode E (visit E n) t s = some (.ok r, s') ∧ Reaches E w s s' := by
    intro r' hy h1 h2 h3
    obtain ⟨n, s0, h4, h5⟩ := hmain (by rcases hy with h | h <;> simp [h]) h1 h2
    refine ⟨n, s0, ?_, h5⟩
    rw [happ, run_bind h4]
    rcases hy with hy | hy
    · rw [hy] at h3 ⊢
      rw [if_pos rfl] at h3
      show M.ofExcept (insertCoverage E.filename k r' (locOf t)) s0 = _
      rw [h3]; rfl
    · rw [hy] at h3 ⊢
      rw [if_neg (by simp)] at h3
      show M.ofExcept (insertCoverage E.filename k r' (locOf c)) s0 = _
      rw [h3]; rfl
  cases hf with
  | nameNone hy hn =>
    refine ⟨0, s1, ?_, hr1⟩
    rw [happ, run_bind (hname hy 0), hy]
    simp only [afterExpand]
    rw [if_pos hn]; rfl
  | nameSame hy hn hsm =>
    refine ⟨0, s1, ?_, hr1⟩
    rw [happ, run_bind (hname hy 0), hy]
    simp only [afterExpand]
    rw [if_neg (by simp [hn]), if_pos hsm]; rfl
  | name hy hn hsm har =>
    obtain ⟨h3, h4⟩ := hAe hn har
    cases hb : b with
    | false =>
      refine ⟨0, s1, ?_, hr1⟩
      rw [happ, run_bind (hname hy 0), hy]
      simp only [afterExpand]
      rw [if_neg (by simp [hn]), if_neg (by simp [hsm]), run_get, hs1.mode, hb, h4 hb]
      rfl
    | true =>
      obtain ⟨n, s2, h5, h6⟩ := h3 hb s1 hs1
      refine ⟨n, s2, ?_, hr1.trans h6⟩
      rw [happ, run_bind (hname hy n), hy]
      simp only [afterExpand]
      rw [if_neg (by simp [hn]), if_neg (by simp [hsm]), run_get, hs1.mode, hb]
      exact h5
  | exprNone hy hn =>
    obtain ⟨n, s0, h1, h2⟩ := hmain (by simp [hy]) (r' := e) (fun _ => rfl) (by simp [hn])
    refine ⟨n, s0, ?_, h2⟩
    rw [happ, run_bind h1, hy]
    simp only [afterExpand]
    rw [if_pos hn]; rfl
  | expr hy hn har =>
    rename_i r'
    obtain ⟨n, s0, h1, h2⟩ := hmain (by simp [hy]) (r' := r') (by simp [hn]) (fun _ => har)
    refine ⟨n, s0, ?_, h2⟩
    rw [happ, run_bind h1, hy]
    rfl
  | stmtNone hy hn hic => exact hstmt hy (fun _ => rfl) (by simp [hn]) hic
  | stmt hy hn har hic => exact hstmt hy (by simp [hn]) (fun _ => har) hic

theorem it_dn {A : Val → Val → Prop} (hA : After E w b A) : ∀ n t r, T t → Tidy t → It E w A n t r → DnAt E w b t r := by
  intro n
  induction n with
  | zero => intro t r _ _ h; exact h.elim
  | succ n ih =>
    intro t r hT ht h s hs
    have hsame : ∀ {t}, (noBindings w = true ∨ isDone t = true ∨ t = .none) → visit E 1 t s = some (.ok t, s) := by
      intro t h
      show visitBody E (visit E 0) t s = _
      unfold visitBody
      rw [run_get]
      cases hc : (noBindings s.world || isDone t) with
      | true => rfl
      | false =>
        rw [hs.world] at hc
        obtain ⟨h1, h2⟩ := Bool.or_eq_false_iff.mp hc
        rcases h with h | h | rfl
        · rw [h1] at h; cases h
        · rw [h2] at h; cases h
        · rfl
    have hnode : ∀ {t}, t.isAST = true → noBindings w = false → isDone t = false → ∀ m, visit E (m + 1) t s = visitNode E (visit E m) t s :=
      fun h1 h2 h3 m => visit_node h1 h3 (by rw [hs.world]; exact h2)
    cases h with
    | same h => exact ⟨1, s, hsame h, .refl hs.world⟩
    | @list xs ys hb hl =>
      have hT' : (Val.list xs).isTree = true := by rcases hT with h | h; cases h; exact h
      obtain ⟨m, s', h1, h2⟩ := elts_dn hl (fun x y hx hr =>
        ih x y (.inr (isAST_isTree (List.all_eq_true.mp hT' x hx))) (tidy_item ht hT' hx) hr) s hs
      refine ⟨m + 1, s', ?_, h2⟩
      show visitBody E (visit E m) (.list xs) s = _
      unfold visitBody
      rw [run_get, hs.world, hb]
      have : isDone (.list xs) = false := rfl
      rw [this]
      simp only [Bool.or_false, Bool.false_eq_true, if_false]
      rw [run_bind h1]
      rfl
    | name hb hk hi =>
      refine ⟨1, s, ?_, .refl hs.world⟩
      rw [hnode (isK_isAST hk) hb (isK_isDone hk), visitNode_other ht.1.1 (by rw [hs.world]; exact hi), if_pos hk]
    | @generic c l fs fs' hb hd hk hi hg =>
      obtain ⟨m, s', h1, h2⟩ := fields_dn c l hg (fun x y hx hr =>
        ih x y (.inr (isAST_isTree (childNodes_isAST hx))) (tidy_child ht hx) hr) s hs
      refine ⟨m + 1, s', ?_, h2⟩
      rw [hnode rfl hb hd, visitNode_other ht.1.1 (by rw [hs.world]; exact hi)]
      have : (Val.node c l fs).isK .Name = false := by
        cases h : (Val.node c l fs).isK .Name with
        | false => rfl
        | true => obtain ⟨l', fs0, he⟩ := isK_eq h; cases he; exact absurd rfl hk
      rw [if_neg (by simp [this])]
      show (genericFields (visit E m) fs >>= _) s = _
      rw [run_bind h1]
      rfl
    | call hb hd hp hbc he hf =>
      have hi := invOf_spec hp
      obtain ⟨m, s', h1, h2⟩ := call_dn hA hs ht hi hbc he hf
      exact ⟨m + 1, s', by rw [hnode (invokes_invocation hi).isAST hb hd]; exact h1, h2⟩

theorem rd_dn : ∀ D t r, T t → Tidy t → RD E w D t r → DnAt E w true t r
  | 0, t, r, hT, ht, ⟨n, h⟩ => it_dn (fun _ _ _ _ h => h.elim) n t r hT ht h
  | D + 1, t, r, hT, ht, ⟨n, h⟩ =>
    it_dn (fun e r he hte h => ⟨fun _ => rd_dn D e r (.inr he) hte h, fun hb => by cases hb⟩) n t r hT ht h

theorem once_dn (n t r) (hT : T t) (ht : Tidy t) (h : It E w Same n t r) : DnAt E w false t r :=
  it_dn (fun _ _ _ _ h => ⟨fun hb => (by cases hb), fun _ => h⟩) n t r hT ht h

end Mcpyrate.Expander.Layers
