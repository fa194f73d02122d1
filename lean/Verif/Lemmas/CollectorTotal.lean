import Verif.Lemmas.Collector
import Verif.Lemmas.CollectorMono
import Verif.Lemmas.ExpanderFixpoint
/-
`MacroCollector` always finishes, and when it does not raise.
-/
namespace Mcpyrate.Collector
open Py M Expander

variable {υ : Type} {E : Env υ} {w : World υ}

/-- The run finishes; if `Q`, without an exception. -/
def Fin (m : C Unit) (Q : Prop) : Prop := ∀ l, ∃ r l', m l = some (r, l') ∧ (Q → r = .ok ())

theorem Fin.mono {m : C Unit} {Q Q' : Prop} (h : Fin m Q) (hq : Q' → Q) : Fin m Q' := fun l => by
  obtain ⟨r, l', h1, h2⟩ := h l
  exact ⟨r, l', h1, h2 ∘ hq⟩

theorem Fin.pure {Q : Prop} : Fin (Pure.pure ()) Q := fun l => ⟨_, l, rfl, fun _ => rfl⟩
theorem Fin.throw {Q : Prop} {e : Exc} (h : ¬ Q) : Fin (M.throw e) Q := fun l => ⟨_, l, rfl, fun hq => absurd hq h⟩
theorem Fin.note {Q : Prop} {k : Key} : Fin (note k) Q := fun _ => ⟨_, _, rfl, fun _ => rfl⟩

theorem Fin.bind {m : C Unit} {f : Unit → C Unit} {Q : Prop} (h : Fin m Q) (h' : Fin (f ()) Q) : Fin (m >>= f) Q := by
  intro l
  obtain ⟨r, l1, h1, h2⟩ := h l
  cases r with
  | error e =>
    refine ⟨.error e, l1, ?_, fun hq => by cases h2 hq⟩
    show M.bind m f l = _
    simp only [M.bind, h1]
  | ok a =>
    obtain ⟨r', l2, h3, h4⟩ := h' l1
    refine ⟨r', l2, ?_, h4⟩
    show M.bind m f l = _
    simp only [M.bind, h1]; exact h3

theorem Fin.ofExcept {α : Type} {x : Except Exc α} {f : α → C Unit} {Q : Prop} (hx : Q → ∃ a, x = .ok a)
    (h : ∀ a, x = .ok a → Fin (f a) Q) : Fin (M.ofExcept x >>= f) Q := by
  cases x with
  | error e => exact Fin.throw (e := e) fun hq => by obtain ⟨a, ha⟩ := hx hq; cases ha
  | ok a => exact h a rfl

theorem Fin.forAll {α : Type} {f : α → C Unit} {xs : List α} {Q : Prop} (h : ∀ x ∈ xs, Fin (f x) Q) : Fin (forAll f xs) Q := by
  induction xs with
  | nil => exact Fin.pure
  | cons x xs ih => exact Fin.bind (h x (by simp)) (ih fun y hy => h y (by simp [hy]))

/-- A tree on which the collector does not raise. -/
structure Good (E : Env υ) (w : World υ) (t : Val) : Prop where
  part : isPart t = true
  shaped : Shaped t
  wf : WellFormed t
  calls : NoBadCalls E w t
  comments : NoTypeComments t

theorem Good.up {t u : Val} (h : Good E w t) (hp : isPart u = true) (ho : ∀ v, Open u v → Open t v) (hr : WellFormed u) :
    Good E w u :=
  ⟨hp, fun v hv => h.shaped v (ho v hv), hr,
    ⟨fun v c hv => h.calls.expr v c (ho v hv), fun v i j c hv => h.calls.block v i j c (ho v hv),
      fun v i c hv => h.calls.decorator v i c (ho v hv)⟩, fun k l fs hv => h.comments k l fs (ho _ hv)⟩

theorem isPart_of_isAST {v : Val} (h : v.isAST = true) : isPart v = true := by
  cases v <;> simp_all [isPart, Val.isAST]

theorem Good.child {t u : Val} (h : Good E w t) (hd : isDone t = false) (hu : u ∈ childNodes t) : Good E w u :=
  h.up (isPart_of_isAST (childNodes_isAST hu)) (fun _ hv => .step hd hu hv) (h.wf.child hu)

theorem WellFormed.list {xs : List Val} (h : ∀ x ∈ xs, WellFormed x) : WellFormed (.list xs) := by
  intro u hu
  cases hu with
  | refl => rfl
  | step hc hr =>
    cases hc with
    | elt hm => exact h _ hm u hr

theorem Good.list {t : Val} {xs : List Val} (h : Good E w t) (hx : ∀ x ∈ xs, x.isAST = true) (ho : ∀ x ∈ xs, ∀ v, Open x v → Open t v)
    (hw : ∀ x ∈ xs, WellFormed x) : Good E w (.list xs) where
  part := by simpa [isPart] using hx
  shaped := Shaped.list fun x hm _ v hv => h.shaped v (ho x hm v hv)
  wf := WellFormed.list hw
  calls := by
    have key : ∀ v, Open (.list xs) v → v.isList = true ∨ Open t v := by
      intro v hv
      cases hv with
      | refl _ => exact .inl rfl
      | step _ hx ho' => exact .inr (ho _ (List.mem_filter.mp hx).1 v ho')
    have nk : ∀ {v k}, Val.isList v = true → v.isK k = true → False := by
      intro v k h1 h2; cases v <;> simp_all [Val.isList, Val.isK]
    exact ⟨fun v c hv hk => (key v hv).elim (fun h => (nk h hk).elim) fun hv => h.calls.expr v c hv hk,
      fun v i j c hv hk => (key v hv).elim (fun h => (nk h hk).elim) fun hv => h.calls.block v i j c hv hk,
      fun v i c hv hk => (key v hv).elim (fun h => (hk.elim (nk h) (nk h)).elim) fun hv => h.calls.decorator v i c hv hk⟩
  comments := by
    intro k l fs hv hk
    cases hv with
    | step _ hx ho' => exact h.comments k l fs (ho _ (List.mem_filter.mp hx).1 _ ho') hk

theorem Good.const {c : Const} (h : isPart (.const c) = true) : Good E w (.const c) := by
  have key : ∀ v, Open (.const c) v → v = .const c := by
    intro v hv
    cases hv with
    | refl _ => rfl
    | step _ hu _ => cases hu
  refine ⟨h, fun v hv => by rw [key v hv]; rfl, WellFormed.const c, ⟨fun v _ hv hk => ?_, fun v _ _ _ hv hk => ?_,
    fun v _ _ hv hk => ?_⟩, fun k l fs hv => ?_⟩
  · rw [key v hv] at hk; cases hk
  · rw [key v hv] at hk; cases hk
  · rw [key v hv] at hk; rcases hk with hk | hk <;> cases hk
  · cases key _ hv

/-! ### Sizes -/

theorem size_get? {t v : Val} {f : F} (h : t.get? f = some v) : v.size < t.size := by
  cases t with
  | node c l fs => have := size_memF (lookup_mem h); simp only [Val.size]; omega
  | _ => cases h

theorem size_item {xs : List Val} {x : Val} (h : x ∈ xs) : x.size < (Val.list xs).size := by
  have := size_mem h; simp only [Val.size]; omega

theorem _root_.Mcpyrate.Expander.Candidate.size {c : Val} {k : String} {as : List Val} (h : Candidate c k as) : (Val.list as).size ≤ c.size := by
  cases h with
  | plain hk hi => have := size_pos c; simp only [Val.size, Val.size.sizeL]; omega
  | bracket hk hv hvk hi ha hat => have := size_get? ha; simp only [Val.size, Val.size.sizeL] at *; omega
  | brackets hk hv hvk hi ha hat he => have := size_get? ha; have := size_get? he; omega
  | parens hk hv hvk hi hkws hne he => have := size_get? he; omega

section
variable {vis : Val → C Unit} {n : Nat}

/-- What is needed of the recursive calls. -/
def VisFin (E : Env υ) (w : World υ) (n : Nat) (vis : Val → C Unit) : Prop := ∀ v, v.size ≤ n → Fin (vis v) (Good E w v)

theorem generic_fin (hv : VisFin E w n vis) {t : Val} (hn : t.size ≤ n + 1) (hd : isDone t = false) :
    Fin (generic vis t) (Good E w t ∧ t.isAST = true) := by
  cases t with
  | const => exact Fin.throw fun h => by cases h.2
  | list => exact Fin.throw fun h => by cases h.2
  | node c l fs =>
    refine Fin.forAll fun p hp => ?_
    obtain ⟨f, v⟩ := p
    cases v with
    | const => exact Fin.pure
    | node c' l' fs' =>
      have hu := mem_childNodes (c := c) (l := l) hp (v := .node c' l' fs') rfl
      have := size_child hu
      exact (hv _ (by omega)).mono fun h => h.1.child hd hu
    | list xs =>
      refine Fin.forAll fun x hx => ?_
      unfold genericItem
      split
      · rename_i hi
        have hu := mem_childNodes_list (c := c) (l := l) hp hx hi
        have := size_child hu
        exact (hv _ (by omega)).mono fun h => h.1.child hd hu
      · exact Fin.pure

/-- An inner node with respect to which `t` is good. -/
theorem found_fin (hv : VisFin E w n vis) {t c : Val} {k : String} {as : List Val} {synt : Syn} (hc : Candidate c k as)
    (hn : c.size ≤ n) (hg : Good E w t → Good E w c) : Fin (found vis synt (k, as)) (Good E w t) := by
  refine Fin.bind .note ((hv (.list as) (Nat.le_trans hc.size hn)).mono fun h => ?_)
  have h := hg h
  have ha := hc.args h.shaped
  refine h.list (fun x hx => (ha x hx).1) (fun x hx => (ha x hx).2) fun x hx => ?_
  cases hc with
  | plain => cases hx
  | bracket hk hv hvk hi ha' hat =>
    simp at hx; subst hx
    exact h.wf.child (get?_child ha' (ha x (by simp)).1)
  | brackets hk hv hvk hi ha' hat he =>
    exact (h.wf.child (get?_child ha' (isK_isAST hat))).child (get?_list_child he hx (ha x hx).1)
  | parens hk hv hvk hi hkws hne he => exact h.wf.child (get?_list_child he hx (ha x hx).1)

/-- Validation fails only for bad calls. -/
theorem destructure_valid {c : Val} (hb : ¬ BadCall c) : destructure true c = destructure false c := by
  unfold destructure
  split
  · rfl
  · split
    · rfl
    · split
      · rename_i hk
        cases hf : attr c .func with
        | error e => rfl
        | ok f =>
          simp only [ok_bind']
          split
          · cases hkw : attr c .keywords with
            | error e => rfl
            | ok kws =>
              simp only [ok_bind']
              split
              · rfl
              · cases ha : attr c .args with
                | error e => rfl
                | ok a =>
                  simp only [ok_bind']
                  cases hl : asList a with
                  | error e => rfl
                  | ok as =>
                    rw [attr_ok] at ha
                    rw [asList_ok] at hl; subst hl
                    simp only [ok_bind']
                    rw [if_neg, if_neg, if_neg, if_neg]
                    · simp
                    · simp
                    · intro h
                      simp only [Bool.true_and, List.any_eq_true] at h
                      obtain ⟨x, hx, hs⟩ := h
                      exact hb ⟨hk, .inr ⟨as, x, ha, hx, hs⟩⟩
                    · intro h
                      simp only [Bool.true_and, List.isEmpty_iff] at h
                      subst h
                      exact hb ⟨hk, .inl ha⟩
          · rfl
      · rfl

theorem destructureCall_total {c : Val} (h : Names E w c) (hb : ¬ BadCall c) : ∃ p, destructureCall c = .ok p := by
  obtain ⟨k, as, id, hc, -⟩ := h
  exact ⟨_, (destructureCall_eq hc).2 hb⟩

theorem visitSubscript_fin (hv : VisFin E w n vis) {t : Val} (hn : t.size ≤ n + 1) (hk : t.isK .Subscript = true) :
    Fin (visitSubscript E w vis t) (Good E w t) := by
  have hd := isK_isDone hk
  have hgen := (generic_fin hv hn hd).mono fun h => ⟨h, isK_isAST hk⟩
  have hfields : Good E w t → (∃ c, t.get? .value = some c) ∧ ∃ v, t.get? .slice = some v ∧ v.isAST = true := by
    intro h
    have h1 := h.wf.self
    have h2 := h.shaped.self hd
    obtain ⟨l, fs, rfl⟩ := isK_eq hk
    simp only [fieldsOk, Bool.and_eq_true, hasField, Option.isSome_iff_exists] at h1
    obtain ⟨v, hv⟩ := h1.2
    simp only [partsOk, hv] at h2
    exact ⟨h1.1, v, hv, h2⟩
  unfold visitSubscript
  refine Fin.ofExcept (fun h => ?_) fun c hc => Fin.ofExcept (fun h => ?_) fun d hdd => ?_
  · obtain ⟨⟨c, hc⟩, -⟩ := hfields h; exact ⟨c, attr_eq hc⟩
  · rw [attr_ok] at hc
    rw [destructure_valid (h.calls.expr t c (.refl t hd) hk hc)]
    exact h.wf.fieldDestructure hc
  · rw [attr_ok] at hc
    cases d with
    | none => exact hgen
    | some p =>
      obtain ⟨k, as⟩ := p
      have hcand := destructure_sound hdd
      dsimp only
      split
      · have hs := size_get? hc
        refine Fin.bind (found_fin hv hcand (by omega) fun h => h.child hd (get?_child hc hcand.isAST))
          (Fin.ofExcept (fun h => ?_) fun v hvv => ?_)
        · obtain ⟨-, v, hv, -⟩ := hfields h; exact ⟨v, attr_eq hv⟩
        · rw [attr_ok] at hvv
          have := size_get? hvv
          refine (hv v (by omega)).mono fun h => ?_
          obtain ⟨-, v', hv', hi⟩ := hfields h
          rw [hvv] at hv'; cases hv'
          exact h.child hd (get?_child hvv hi)
      · exact hgen

theorem visitName_fin {t : Val} (hk : t.isK .Name = true) : Fin (visitName E w t) (Good E w t) := by
  unfold visitName
  refine Fin.ofExcept (fun h => ?_) fun i _ => ?_
  · have h1 := h.wf.self
    obtain ⟨l, fs, rfl⟩ := isK_eq hk
    simp only [fieldsOk, hasField, Option.isSome_iff_exists] at h1
    obtain ⟨v, hv⟩ := h1
    exact ⟨v, attr_eq hv⟩
  · cases asName i with
    | none => exact Fin.pure
    | some k =>
      dsimp only
      split
      · exact Fin.note
      · exact Fin.pure

theorem visitMacro_fin (hv : VisFin E w n vis) {synt : Syn} {t x c : Val} (hc : candidateOf synt x = .ok c) (hn : c.size ≤ n)
    (hok : Good E w t → Good E w c ∧ ¬ BadCall c) (hnm : Names E w c) : Fin (visitMacro vis synt x) (Good E w t) := by
  refine Fin.ofExcept (fun _ => ⟨c, hc⟩) fun c' hc' => ?_
  rw [hc] at hc'; cases hc'
  refine Fin.ofExcept (fun h => destructureCall_total hnm (hok h).2) fun p hp => ?_
  obtain ⟨k, as⟩ := p
  exact found_fin hv (destructureCall_ok hp) hn fun h => (hok h).1

theorem visitWith_fin (hv : VisFin E w n vis) {t : Val} (hn : t.size ≤ n + 1) (hk : t.isK .With = true) :
    Fin (visitWith E w vis t) (Good E w t) := by
  have hd := isK_isDone hk
  have hgen := (generic_fin hv hn hd).mono fun h => ⟨h, isK_isAST hk⟩
  have hfields : Good E w t → ∃ items xs, t.get? .items = some (.list items) ∧ (∀ i ∈ items, i.isK .withitem = true ∧
      ∃ c d, i.get? .context_expr = some c ∧ destructure false c = .ok d) ∧ t.get? .body = some (.list xs) ∧
      ∀ x ∈ xs, x.isAST = true := by
    intro h
    obtain ⟨items, h1, h2⟩ := h.wf.withItems hk
    have h3 := h.shaped.self hd
    obtain ⟨l, fs, rfl⟩ := isK_eq hk
    simp only [partsOk, h1, Bool.and_eq_true] at h3
    obtain ⟨xs, h4, h5⟩ := nodesAt_eq h3.2
    exact ⟨items, xs, h1, h2, h4, h5⟩
  unfold visitWith
  refine Fin.ofExcept (fun h => ?_) fun items hi => Fin.ofExcept (fun h => ?_) fun ds hds => ?_
  · obtain ⟨items, xs, h1, -⟩ := hfields h
    exact ⟨items, by simp [attr_eq h1, ok_bind', asList]⟩
  · simp only [ok_bind, attr_ok, asList_ok] at hi
    obtain ⟨_, hi, rfl⟩ := hi
    obtain ⟨items, xs, h1, h2, -⟩ := hfields h
    rw [hi] at h1; cases h1
    refine detect_total fun i hm => ?_
    obtain ⟨-, c, d, h3, h4⟩ := h2 i hm
    exact ⟨c, d, by simp [candidateOf, attr_eq h3], h4⟩
  · simp only [ok_bind, attr_ok, asList_ok] at hi
    obtain ⟨_, hi, rfl⟩ := hi
    have hsi := size_get? hi
    split
    · exact hgen
    · refine Fin.bind (Fin.forAll fun x hx => ?_) (Fin.bind (Fin.forAll fun x hx => ?_) ?_)
      · obtain ⟨hxi, c, hc, hnm⟩ := macrosOf_mem (by decide) hds hx
        have hc' := hc
        simp only [candidateOf, if_true, attr_ok] at hc
        have := size_item hxi
        have := size_get? hc
        refine visitMacro_fin hv hc' (by omega) (fun h => ?_) hnm
        obtain ⟨items, xs, h1, h2, -⟩ := hfields h
        rw [hi] at h1; cases h1
        have hkx := (h2 x hxi).1
        obtain ⟨_, _, _, hcand, -⟩ := id hnm
        exact ⟨(h.child hd (get?_list_child hi hxi (isK_isAST hkx))).child (isK_isDone hkx) (get?_child hc hcand.isAST),
          h.calls.block t items x c (.refl t hd) hk hi hxi hc hnm⟩
      · have hxi := othersOf_mem (by decide) hds hx
        have := size_item hxi
        refine (hv x (by omega)).mono fun h => ?_
        obtain ⟨items, xs, h1, h2, -⟩ := hfields h
        rw [hi] at h1; cases h1
        exact h.child hd (get?_list_child hi hxi (isK_isAST (h2 x hxi).1))
      · refine Fin.ofExcept (fun h => ?_) fun b hb => ?_
        · obtain ⟨items, xs, -, -, h1, -⟩ := hfields h
          exact ⟨_, attr_eq h1⟩
        · rw [attr_ok] at hb
          have := size_get? hb
          refine (hv b (by omega)).mono fun h => ?_
          obtain ⟨items, xs, -, -, h1, h2⟩ := hfields h
          rw [hb] at h1; cases h1
          exact h.list h2 (fun x hx v hv => .step hd (get?_list_child hb hx (h2 x hx)) hv)
            fun x hx => h.wf.child (get?_list_child hb hx (h2 x hx))

theorem visitDecorated_fin (hv : VisFin E w n vis) {t : Val} (hn : t.size ≤ n + 1)
    (hk : t.isK .FunctionDef = true ∨ t.isK .ClassDef = true) :
    Fin (visitDecorated E w vis t) (Good E w t) := by
  have hd : isDone t = false := hk.elim isK_isDone isK_isDone
  have hgen := (generic_fin hv hn hd).mono fun h => ⟨h, hk.elim isK_isAST isK_isAST⟩
  unfold visitDecorated
  refine Fin.ofExcept (fun h => ?_) fun items hi => Fin.ofExcept (fun h => ?_) fun ds hds => ?_
  · obtain ⟨items, h1⟩ := h.wf.decorators hk
    exact ⟨items, by simp [attr_eq h1, ok_bind', asList]⟩
  · simp only [ok_bind, attr_ok, asList_ok] at hi
    obtain ⟨_, hi, rfl⟩ := hi
    refine detect_total fun i hm => ?_
    obtain ⟨d, hd⟩ := h.wf.itemDestructure hi hm
    exact ⟨i, d, rfl, hd⟩
  · simp only [ok_bind, attr_ok, asList_ok] at hi
    obtain ⟨_, hi, rfl⟩ := hi
    have hsi := size_get? hi
    have hparts : Good E w t → (∀ x ∈ items, x.isAST = true) ∧ ∀ c l fs, t = .node c l fs → ∀ p ∈ fs, p.1 ≠ .name →
        isPart p.2 = true := by
      intro h
      have h1 := h.shaped.self hd
      rcases hk with hk | hk <;> obtain ⟨l, fs, rfl⟩ := isK_eq hk <;>
        simp only [partsOk, Bool.and_eq_true, nodesAt, hi, List.all_eq_true, Bool.or_eq_true, beq_iff_eq] at h1 <;>
        refine ⟨h1.1, fun c l fs e p hp hne => ?_⟩ <;> cases e <;> rcases h1.2 p hp with (h2 | h2) | h2
      · exact absurd h2 hne
      · obtain ⟨f, v⟩ := p
        obtain ⟨rfl, -⟩ := h2
        rw [h.comments _ l fs (.refl _ hd) (.inl rfl) v hp]; rfl
      · exact h2
      · exact absurd h2 hne
      · obtain ⟨f, v⟩ := p
        obtain ⟨rfl, -⟩ := h2
        rw [h.comments _ l fs (.refl _ hd) (.inr rfl) v hp]; rfl
      · exact h2
    split
    · exact hgen
    · refine Fin.bind (Fin.forAll fun x hx => ?_) (Fin.bind (Fin.forAll fun x hx => ?_) (Fin.forAll fun v hvv => ?_))
      · obtain ⟨hxi, c, hc, hnm⟩ := macrosOf_mem (by decide) hds hx
        cases hc
        have := size_item hxi
        refine visitMacro_fin hv (c := x) rfl (by omega) (fun h => ?_) hnm
        exact ⟨h.child hd (get?_list_child hi hxi ((hparts h).1 x hxi)),
          h.calls.decorator t items x (.refl t hd) hk hi hxi hnm⟩
      · have hxi := othersOf_mem (by decide) hds hx
        have := size_item hxi
        exact (hv x (by omega)).mono fun h => h.child hd (get?_list_child hi hxi ((hparts h).1 x hxi))
      · cases t with
        | const => cases hvv
        | list => cases hvv
        | node c l fs =>
          simp only [otherFields, List.mem_map, List.mem_filter, decide_eq_true_eq] at hvv
          obtain ⟨⟨f, v⟩, ⟨hf, -, hne⟩, rfl⟩ := hvv
          have := size_memF hf
          simp only [Val.size] at hn
          refine (hv v (by omega)).mono fun h => ?_
          have hp := (hparts h).2 c l fs rfl _ hf hne
          dsimp only at hp
          cases v with
          | const a => exact .const hp
          | node c' l' fs' => exact h.child hd (mem_childNodes hf rfl)
          | list xs =>
            simp only [isPart, List.all_eq_true] at hp
            exact h.list hp (fun x hx v hv => .step hd (mem_childNodes_list hf hx (hp x hx)) hv)
              fun x hx => h.wf.child (mem_childNodes_list hf hx (hp x hx))

theorem visitNode_fin (hv : VisFin E w n vis) {t : Val} (hn : t.size ≤ n + 1) (hd : isDone t = false) :
    Fin (visitNode E w vis t) (Good E w t ∧ t.isAST = true) := by
  unfold visitNode
  split
  · exact (visitSubscript_fin hv hn rfl).mono And.left
  · exact (visitWith_fin hv hn rfl).mono And.left
  · exact (visitDecorated_fin hv hn (.inr rfl)).mono And.left
  · exact (visitDecorated_fin hv hn (.inl rfl)).mono And.left
  · exact (visitName_fin rfl).mono And.left
  · exact generic_fin hv hn hd

theorem visitBody_fin (hv : VisFin E w n vis) : VisFin E w (n + 1) (visitBody E w vis) := by
  intro t hn
  unfold visitBody
  split
  · exact Fin.pure
  · rename_i h
    rw [Bool.not_eq_true, Bool.or_eq_false_iff] at h
    split
    · exact Fin.pure
    · rename_i xs
      refine Fin.forAll fun x hx => ?_
      have := size_item hx
      refine (hv x (by omega)).mono fun h => ?_
      have hp := h.part
      simp only [isPart, List.all_eq_true] at hp
      exact h.child rfl (List.mem_filter.mpr ⟨hx, hp x hx⟩)
    · rename_i h1 h2
      refine (visitNode_fin hv hn h.2).mono fun hg => ⟨hg, ?_⟩
      have := hg.part
      cases t with
      | node => rfl
      | list xs => exact absurd rfl (h2 xs)
      | const c =>
        cases c with
        | none => exact absurd rfl h1
        | _ => cases this

end

theorem visit_fin (n : Nat) : VisFin E w n (visit E w n) := by
  induction n with
  | zero => intro t ht; have := size_pos t; omega
  | succ n ih => exact visitBody_fin ih

theorem collects_total (t : Val) : ∃ r l, Collects E w t r l ∧ (Good E w t → r = .ok ()) := by
  obtain ⟨r, l, h1, h2⟩ := visit_fin (E := E) (w := w) t.size t (Nat.le_refl _) []
  exact ⟨r, l, ⟨_, h1⟩, h2⟩

theorem Collects.ok {t : Val} {r : Except Exc Unit} {l : List Key} (h : Collects E w t r l) (hg : Good E w t) : r = .ok () := by
  obtain ⟨r', l', h1, h2⟩ := collects_total (E := E) (w := w) t
  rw [(h.unique h1).1]; exact h2 hg

/-! ### Checks for concrete trees -/

theorem open_check {t : Val} {p : Val → Bool} (h : (preorder t).all p = true) (hc : ∀ u, u.isAST = false → p u = true) :
    ∀ u, Open t u → p u = true := by
  intro u hu
  cases hua : u.isAST with
  | true => exact List.all_eq_true.mp h u (reach_mem_preorder hu.reach hua)
  | false => exact hc u hua

theorem shaped_of {t : Val} (h : (preorder t).all partsOk = true) : Shaped t :=
  open_check h fun u hu => by cases u <;> simp_all [Val.isAST, partsOk]

theorem wellFormed_of {t : Val} (h : (preorder t).all fieldsOk = true) : WellFormed t := by
  intro u hu
  cases hua : u.isAST with
  | true => exact List.all_eq_true.mp h u (reach_mem_preorder hu hua)
  | false => cases u <;> simp_all [Val.isAST, fieldsOk]

/-- Parenthesised arguments, if any, are there and are not unpacked. -/
def callOk (t : Val) : Bool :=
  !t.isK .Call || match t.get? .args with
    | some (.list as) => !as.isEmpty && !as.any (·.isK .Starred)
    | _ => true

theorem callOk_not {t : Val} (h : callOk t = true) : ¬ BadCall t := by
  rintro ⟨hk, ha | ⟨as, a, ha, hm, hs⟩⟩
  · simp [callOk, hk, ha] at h
  · simp [callOk, hk, ha] at h
    have := h.2 a hm
    rw [hs] at this; cases this

/-- No call without arguments, or with `*`-unpacking, and no type comment. -/
def plainOk (t : Val) : Bool :=
  callOk t && match t with
    | .node (.py .FunctionDef) _ fs | .node (.py .ClassDef) _ fs => fs.all fun p => p.1 != .type_comment || p.2.isNone
    | _ => true

theorem callOk_part {t : Val} (h : (preorder t).all plainOk = true) {u c : Val} (hu : Open t u) (hc : Reach u c) : ¬ BadCall c := by
  intro hb
  have h1 := List.all_eq_true.mp h c (reach_mem_preorder (hu.reach.trans hc) (isK_isAST hb.1))
  simp only [plainOk, Bool.and_eq_true] at h1
  exact callOk_not h1.1 hb

theorem reach_get? {t v : Val} {f : F} (h : t.get? f = some v) (hv : v.isAST = true) : Reach t v :=
  .step (childNodes_child (get?_child h hv)) (.refl _)

theorem noBadCalls_of {t : Val} (h : (preorder t).all plainOk = true) : NoBadCalls E w t where
  expr u c hu _ hc hb := callOk_part h hu (reach_get? hc (isK_isAST hb.1)) hb
  block u items item c hu _ hi hm hc _ hb := by
    have hia : item.isAST = true := by cases item <;> first | rfl | cases hc
    exact callOk_part h hu (.step (childNodes_child (get?_list_child hi hm hia)) (reach_get? hc (isK_isAST hb.1))) hb
  decorator u items c hu _ hi hm _ hb :=
    callOk_part h hu (.step (childNodes_child (get?_list_child hi hm (isK_isAST hb.1))) (.refl _)) hb

theorem noTypeComments_of {t : Val} (h : (preorder t).all plainOk = true) : NoTypeComments t := by
  intro k l fs hu hk v hv
  have h1 := List.all_eq_true.mp h _ (reach_mem_preorder hu.reach rfl)
  simp only [plainOk, Bool.and_eq_true] at h1
  have h2 := h1.2
  rcases hk with rfl | rfl <;>
  · simp only [List.all_eq_true] at h2
    have := h2 _ hv
    simp only [bne_self_eq_false, Bool.false_or] at this
    unfold Val.isNone at this
    split at this
    · rfl
    · cases this

end Mcpyrate.Collector
