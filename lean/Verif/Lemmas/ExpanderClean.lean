import Verif.Lemmas.Invocation
import Verif.Lemmas.ExpanderMono
import Verif.Lemmas.Tree
/-
A tree without macro invocations is returned as it is.
-/
namespace Mcpyrate.Expander
open Py

variable {υ : Type}

section lists
variable {α : Type} {p : α → Bool}

theorem splitFirst_none {xs : List α} : splitFirst p xs = none ↔ ∀ x ∈ xs, p x = false := by
  induction xs with
  | nil => simp [splitFirst]
  | cons x xs ih =>
    unfold splitFirst
    cases hx : p x with
    | true => simp [hx]
    | false =>
      simp only [Bool.false_eq_true, if_false, List.mem_cons, forall_eq_or_imp, hx, true_and]
      rw [← ih]
      cases splitFirst p xs <;> simp

theorem splitFirst_some {xs a b : List α} {y : α} (h : splitFirst p xs = some (a, y, b)) :
    xs = a ++ y :: b ∧ p y = true ∧ ∀ x ∈ a, p x = false := by
  induction xs generalizing a with
  | nil => cases h
  | cons x xs ih =>
    unfold splitFirst at h
    split at h
    · rename_i hx; cases h; exact ⟨rfl, hx, by simp⟩
    · rename_i hx
      split at h
      · cases h
      · rename_i a' y' b' hs
        cases h
        obtain ⟨h1, h2, h3⟩ := ih hs
        exact ⟨by rw [h1]; rfl, h2, by simpa [hx] using h3⟩

theorem splitLast_none {xs : List α} : splitLast p xs = none ↔ ∀ x ∈ xs, p x = false := by
  induction xs with
  | nil => simp [splitLast]
  | cons x xs ih =>
    unfold splitLast
    cases hs : splitLast p xs with
    | none =>
      rw [hs] at ih
      have := ih.mp rfl
      cases hx : p x <;> simp [hx]
      exact this
    | some q =>
      obtain ⟨a, y, b⟩ := q
      rw [hs] at ih
      simp only [reduceCtorEq, false_iff, List.mem_cons, forall_eq_or_imp, not_and]
      intro _ h; exact absurd (ih.mpr h) (by simp)

theorem splitLast_some {xs a b : List α} {y : α} (h : splitLast p xs = some (a, y, b)) :
    xs = a ++ y :: b ∧ p y = true ∧ ∀ x ∈ b, p x = false := by
  induction xs generalizing a with
  | nil => cases h
  | cons x xs ih =>
    unfold splitLast at h
    split at h
    · rename_i a' y' b' hs
      cases h
      obtain ⟨h1, h2, h3⟩ := ih hs
      exact ⟨by rw [h1]; rfl, h2, h3⟩
    · rename_i hs
      split at h
      · rename_i hx; cases h; exact ⟨rfl, hx, splitLast_none.mp hs⟩
      · cases h

end lists

theorem detect_sound {E : Env υ} {w : World υ} {synt : Syn} (hs : synt ≠ .name) {items : List Val}
    {ds : List (Val × Bool)} (h : detect E w synt items = .ok ds) :
    ds.map (·.1) = items ∧
      ∀ q ∈ ds, ∃ c, candidateOf synt q.1 = .ok c ∧ (q.2 = true ↔ Names E w c) := by
  induction items generalizing ds with
  | nil => cases h; simp
  | cons i items ih =>
    unfold detect at h
    simp only [ok_bind, pure_ok] at h
    obtain ⟨c, hc, d, hd, r, hr, rfl⟩ := h
    obtain ⟨h1, h2⟩ := ih hr
    refine ⟨by simp [h1], ?_⟩
    intro q hq
    rcases List.mem_cons.mp hq with rfl | hq
    · exact ⟨c, hc, names_iff hs hd⟩
    · exact h2 q hq

theorem detect_total {E : Env υ} {w : World υ} {synt : Syn} {items : List Val}
    (h : ∀ i ∈ items, ∃ c d, candidateOf synt i = .ok c ∧ destructure false c = .ok d) :
    ∃ ds, detect E w synt items = .ok ds := by
  induction items with
  | nil => exact ⟨_, rfl⟩
  | cons i items ih =>
    obtain ⟨c, d, hc, hd⟩ := h i (by simp)
    obtain ⟨r, hr⟩ := ih fun i hi => h i (by simp [hi])
    unfold detect
    simp only [hc, hd, hr, ok_bind']
    exact ⟨_, rfl⟩

/-! ### Computing with `M` -/

theorem run_bind {α β : Type} {m : X υ α} {f : α → X υ β} {s s' : St υ} {a : α}
    (h : m s = some (.ok a, s')) : (m >>= f) s = f a s' := by
  change M.bind m f s = _
  simp only [M.bind]; rw [h]

theorem run_ofExcept {α β : Type} {x : Except Exc α} {f : α → X υ β} {s : St υ} {a : α}
    (h : x = .ok a) : (M.ofExcept x >>= f) s = f a s := by
  rw [h]; rfl

theorem run_get {β : Type} {f : St υ → X υ β} {s : St υ} : (M.get >>= f) s = f s s := rfl

/-- No invocation in `t` outside of `Done`-marked parts, and the required fields are there. -/
def Clean (E : Env υ) (w : World υ) (t : Val) : Prop :=
  ∀ u, Open t u → fieldsOk u = true ∧ ¬ Invocation E w u

theorem Clean.child {E : Env υ} {w : World υ} {t u : Val} (h : Clean E w t) (hd : isDone t = false)
    (hu : u ∈ childNodes t) : Clean E w u := fun s hs => h s (.step hd hu hs)

theorem Clean.self {E : Env υ} {w : World υ} {t : Val} (h : Clean E w t) (hd : isDone t = false) :
    fieldsOk t = true ∧ ¬ Invocation E w t := h t (.refl t hd)

/-- The required fields are there: also for a `Done` marker. -/
theorem Clean.fields {E : Env υ} {w : World υ} {t : Val} (h : Clean E w t) : fieldsOk t = true := by
  cases hd : isDone t with
  | false => exact (h.self hd).1
  | true =>
    unfold isDone at hd
    split at hd
    · rfl
    · rfl
    · cases hd

theorem childNodes_isAST {t u : Val} (h : u ∈ childNodes t) : u.isAST = true := by
  unfold childNodes at h
  split at h
  · rw [List.mem_flatMap] at h
    obtain ⟨⟨f, v⟩, -, h⟩ := h
    dsimp only at h
    split at h
    · simp at h; subst h; rfl
    · exact (List.mem_filter.mp h).2
    · cases h
  · exact (List.mem_filter.mp h).2
  · cases h

/-- `destructure` does not fail in a clean tree. -/
theorem Clean.destructure {E : Env υ} {w : World υ} {t : Val} (h : Clean E w t) :
    ∃ d, destructure false t = .ok d := by
  cases hd : isDone t with
  | false => exact destructure_total h.fields fun u hu => (h.child hd hu).fields
  | true =>
    unfold isDone at hd
    split at hd
    · exact ⟨none, rfl⟩
    · exact ⟨none, rfl⟩
    · cases hd

section
variable {E : Env υ} {vis : Val → X υ Val} {s : St υ}

theorem genericItems_same {xs : List Val} (h : ∀ x ∈ xs, x.isAST = true → vis x s = some (.ok x, s)) :
    genericItems vis xs s = some (.ok xs, s) := by
  induction xs with
  | nil => rfl
  | cons x xs ih =>
    have ih := ih fun y hy => h y (by simp [hy])
    unfold genericItems
    split
    · rename_i hx
      rw [run_bind (h x (by simp) hx), run_bind ih]
      cases x <;> simp_all [Val.isAST, Markers.spliceResult] <;> rfl
    · rw [run_bind ih]; rfl

theorem genericFields_same {c : Cls} {l : Loc} {fs : Fields}
    (h : ∀ x ∈ childNodes (.node c l fs), vis x s = some (.ok x, s)) :
    genericFields vis fs s = some (.ok fs, s) := by
  induction fs with
  | nil => rfl
  | cons q fs ih =>
    obtain ⟨f, v⟩ := q
    have ih := ih fun y hy => h y (by
      simp only [childNodes, List.mem_flatMap] at hy ⊢
      obtain ⟨p, hp, hy⟩ := hy
      exact ⟨p, List.mem_cons_of_mem _ hp, hy⟩)
    unfold genericFields
    cases v with
    | const k => dsimp only; rw [run_bind ih]; rfl
    | list xs =>
      dsimp only
      rw [run_bind (genericItems_same fun x hx hxa => h x (by simp [childNodes, hx, hxa])), run_bind ih]
      rfl
    | node c' l' gs =>
      dsimp only
      rw [run_bind (h (.node c' l' gs) (by simp [childNodes])), run_bind ih]
      rfl

theorem genericVisit_same {c : Cls} {l : Loc} {fs : Fields}
    (h : ∀ x ∈ childNodes (.node c l fs), vis x s = some (.ok x, s)) :
    genericVisit vis (.node c l fs) s = some (.ok (.node c l fs), s) := by
  change (genericFields vis fs >>= _) s = _
  rw [run_bind (genericFields_same h)]; rfl

/-- A node that is no invocation, all of whose children are visited without effect. -/
theorem visitNode_same {t : Val} (ht : t.isAST = true) (hd : isDone t = false)
    (hc : Clean E s.world t) (h : ∀ x ∈ childNodes t, vis x s = some (.ok x, s)) :
    visitNode E vis t s = some (.ok t, s) := by
  have hself := hc.self hd
  have hdec : ∀ l fs k, t = .node (.py k) l fs → (k = .FunctionDef ∨ k = .ClassDef) →
      visitDecorated E vis t s = some (.ok t, s) := by
    rintro l fs k rfl hk
    have hf := hself.1
    have hl : ∃ items, (Val.node (.py k) l fs).get? .decorator_list = some (.list items) := by
      rcases hk with rfl | rfl <;>
      · simp only [fieldsOk, hasList] at hf
        split at hf
        · exact ⟨_, by assumption⟩
        · cases hf
    obtain ⟨items, hi⟩ := hl
    unfold visitDecorated
    rw [run_ofExcept (a := items) (by rw [attr_eq hi]; rfl), run_get]
    obtain ⟨ds, hds⟩ := detect_total (E := E) (w := s.world) (synt := .decorator) (items := items)
      (fun i him => by
        refine ⟨i, ?_⟩
        have : ∃ d, destructure false i = .ok d := by
          cases hia : i.isAST with
          | true => exact (hc.child hd (get?_list_child hi him hia)).destructure
          | false => cases i <;> simp_all [Val.isAST] <;> exact ⟨none, rfl⟩
        obtain ⟨d, hd⟩ := this
        exact ⟨d, rfl, hd⟩)
    rw [run_ofExcept hds]
    obtain ⟨h1, h2⟩ := detect_sound (by decide) hds
    rw [splitLast_none.mpr]
    · exact genericVisit_same h
    · intro q hq
      obtain ⟨c, hqc, hqn⟩ := h2 q hq
      cases hq2 : q.2 with
      | false => rfl
      | true =>
        refine absurd ?_ hself.2
        cases hqc
        refine .decorator (c := q.1) (items := items) (by rcases hk with rfl | rfl <;> simp [Val.isK]) hi ?_ (hqn.mp hq2)
        rw [← h1]; exact List.mem_map_of_mem hq
  unfold visitNode
  split
  · -- Subscript
    rename_i l fs
    have hf := hself.1
    simp only [fieldsOk, Bool.and_eq_true] at hf
    obtain ⟨v, hv⟩ := Option.isSome_iff_exists.mp hf.1
    unfold visitSubscript
    rw [run_ofExcept (attr_eq hv)]
    have : ∃ d, destructure false v = .ok d := by
      cases hva : v.isAST with
      | true => exact (hc.child hd (get?_child hv hva)).destructure
      | false => cases v <;> simp_all [Val.isAST] <;> exact ⟨none, rfl⟩
    obtain ⟨d, hdd⟩ := this
    rw [run_ofExcept hdd, run_get]
    split
    · rename_i hm
      exact absurd (.expr rfl hv ((names_iff (by decide) hdd).mp hm)) hself.2
    · exact genericVisit_same h
  · -- With
    rename_i l fs
    have hf := hself.1
    simp only [fieldsOk] at hf
    split at hf
    · rename_i items hi
      unfold visitWith
      rw [run_ofExcept (a := items) (by rw [attr_eq hi]; rfl), run_get]
      have hit : ∀ i ∈ items, i.isK .withitem = true ∧ ∃ c, i.get? .context_expr = some c := fun i him => by
        have := List.all_eq_true.mp hf i him
        rw [Bool.and_eq_true] at this
        exact ⟨this.1, Option.isSome_iff_exists.mp this.2⟩
      obtain ⟨ds, hds⟩ := detect_total (E := E) (w := s.world) (synt := .block) (items := items)
        (fun i him => by
          obtain ⟨hik, c, hci⟩ := hit i him
          refine ⟨c, ?_⟩
          have : ∃ d, destructure false c = .ok d := by
            cases hca : c.isAST with
            | true =>
              have hic := hc.child hd (get?_list_child hi him (isK_isAST hik))
              exact (hic.child (isK_isDone hik) (get?_child hci hca)).destructure
            | false => cases c <;> simp_all [Val.isAST] <;> exact ⟨none, rfl⟩
          obtain ⟨d, hd⟩ := this
          exact ⟨d, attr_eq hci, hd⟩)
      rw [run_ofExcept hds]
      obtain ⟨h1, h2⟩ := detect_sound (by decide) hds
      rw [splitFirst_none.mpr]
      · exact genericVisit_same h
      · intro q hq
        obtain ⟨c, hqc, hqn⟩ := h2 q hq
        cases hq2 : q.2 with
        | false => rfl
        | true =>
          refine absurd ?_ hself.2
          refine .block (c := c) (items := items) (item := q.1) rfl hi ?_ (attr_ok.mp hqc) (hqn.mp hq2)
          rw [← h1]; exact List.mem_map_of_mem hq
    · cases hf
  · exact hdec _ _ _ rfl (.inr rfl)
  · exact hdec _ _ _ rfl (.inl rfl)
  · -- Name
    rename_i l fs
    obtain ⟨i, hi⟩ := Option.isSome_iff_exists.mp hself.1
    unfold visitName
    rw [run_ofExcept (attr_eq hi), run_get]
    split
    · rename_i hm
      cases hn : asName i with
      | none => rw [hn] at hm; cases hm
      | some k =>
        rw [hn] at hm
        obtain ⟨hk, id, hb, hn'⟩ := ismacrocall_name.mp hm
        rw [asName_some] at hn; subst hn
        exact absurd (.name rfl hi hk hb hn') hself.2
    · rfl
  · cases t with
    | node c l fs => exact genericVisit_same h
    | const c => cases ht
    | list xs => cases ht

end

theorem size_pos (t : Val) : 0 < t.size := by
  cases t <;> simp [Val.size] <;> omega

theorem size_mem {xs : List Val} {x : Val} (h : x ∈ xs) : x.size ≤ Val.size.sizeL xs := by
  induction xs with
  | nil => cases h
  | cons y ys ih =>
    simp only [Val.size.sizeL]
    rcases List.mem_cons.mp h with rfl | h
    · omega
    · have := ih h; omega

theorem size_memF {fs : Fields} {f : F} {v : Val} (h : (f, v) ∈ fs) : v.size ≤ Val.size.sizeF fs := by
  induction fs with
  | nil => cases h
  | cons y ys ih =>
    obtain ⟨g, w⟩ := y
    simp only [Val.size.sizeF]
    rcases List.mem_cons.mp h with h | h
    · cases h; omega
    · have := ih h; omega

theorem size_child {t u : Val} (h : u ∈ childNodes t) : u.size < t.size := by
  unfold childNodes at h
  split at h
  · rw [List.mem_flatMap] at h
    obtain ⟨⟨f, v⟩, hf, h⟩ := h
    have := size_memF hf
    dsimp only at h
    simp only [Val.size]
    split at h
    · simp at h; subst h; omega
    · have h := size_mem (List.mem_filter.mp h).1
      simp only [Val.size] at this
      omega
    · cases h
  · have := size_mem (List.mem_filter.mp h).1
    simp only [Val.size]; omega
  · cases h

theorem visitElts_same {vis : Val → X υ Val} {s : St υ} {xs : List Val}
    (h : ∀ x ∈ xs, vis x s = some (.ok x, s)) : visitElts vis xs s = some (.ok xs, s) := by
  induction xs with
  | nil => rfl
  | cons x xs ih =>
    unfold visitElts
    rw [run_bind (h x (by simp)), run_bind (ih fun y hy => h y (by simp [hy]))]; rfl

theorem flattenV_nodes {xs : List Val} (h : xs.all Val.isAST = true) : Markers.flattenV xs = xs := by
  induction xs with
  | nil => rfl
  | cons x xs ih =>
    simp only [List.all_cons, Bool.and_eq_true] at h
    cases x with
    | node c l fs => simp [Markers.flattenV, Markers.flattenItem, ih h.2]
    | const c => cases h.1
    | list xs => cases h.1

/-- A clean tree is returned as it is, and nothing happens. -/
theorem visit_clean (E : Env υ) (s : St υ) (n : Nat) (t : Val) (ht : t.isTree = true)
    (hne : t ≠ .list []) (hc : Clean E s.world t) (hn : t.size ≤ n) :
    visit E n t s = some (.ok t, s) := by
  induction n generalizing t with
  | zero => have := size_pos t; omega
  | succ n ih =>
    change visitBody E (visit E n) t s = _
    unfold visitBody
    rw [run_get]
    split
    · rfl
    · rename_i hcond
      simp only [Bool.or_eq_true, not_or, Bool.not_eq_true] at hcond
      have hch : ∀ x ∈ childNodes t, visit E n x s = some (.ok x, s) := by
        intro x hx
        have hxa := childNodes_isAST hx
        refine ih x (by cases x <;> simp_all [Val.isAST, Val.isTree]) (by rintro rfl; cases hxa)
          (hc.child hcond.2 hx) ?_
        have := size_child hx; omega
      cases t with
      | const c => cases ht
      | list xs =>
        have hxs : xs.all Val.isAST = true := ht
        have hch' : ∀ x ∈ xs, visit E n x s = some (.ok x, s) := fun x hx =>
          hch x (List.mem_filter.mpr ⟨hx, List.all_eq_true.mp hxs x hx⟩)
        change (visitElts (visit E n) xs >>= _) s = _
        rw [run_bind (visitElts_same hch'), flattenV_nodes hxs]
        cases xs with
        | nil => exact absurd rfl hne
        | cons x xs => rfl
      | node c l fs => exact visitNode_same rfl hcond.2 hc hch

end Mcpyrate.Expander
