import Verif.Lemmas.ExpanderClean
import Verif.Lemmas.ExpanderEffect
import Verif.Lemmas.ExpanderMono
/-
Parts of a tree outside of the expanded invocations survive a visit.
-/
namespace Mcpyrate.Expander
open Py

variable {υ : Type} {A : Val → Prop}

theorem childNodes_child {t u : Val} (h : u ∈ childNodes t) : Child t u := by
  cases t with
  | const k => simp [childNodes] at h
  | list xs => simp only [childNodes, List.mem_filter] at h; exact .elt h.1 h.2
  | node c l fs =>
    simp only [childNodes, List.mem_flatMap] at h
    obtain ⟨⟨f, v⟩, hm, hu⟩ := h
    cases v with
    | const k => simp at hu
    | list xs => simp only [List.mem_filter] at hu; exact .item hm hu.1 hu.2
    | node c' l' fs' => simp only [List.mem_singleton] at hu; subst hu; exact .field hm rfl

theorem Open.reach {t u : Val} (h : Open t u) : Reach t u := by
  induction h with
  | refl => exact .refl _
  | step _ hm _ ih => exact .step (childNodes_child hm) ih

theorem Open.isAST {t u : Val} (h : Open t u) (ht : t.isAST = true) : u.isAST = true := by
  induction h with
  | refl => exact ht
  | step _ hm _ ih => exact ih (childNodes_child hm).isAST

theorem Agree.isAST {w w' : Val} (h : Agree A w w') (hw : w.isAST = true) (hA : ¬ A w) :
    w'.isAST = true := by
  cases h with
  | refl => exact hw
  | replaced _ _ h => exact absurd h hA
  | node => rfl

theorem AgreeL.mem {xs ys : List Val} {w : Val} (h : AgreeL A xs ys) (hw : w ∈ xs)
    (hi : w.isAST = true) (hA : ¬ A w) : ∃ w' ∈ ys, Agree A w w' ∧ w'.isAST = true := by
  match h with
  | .nil => cases hw
  | .same x xs ys h =>
    rcases List.mem_cons.mp hw with e | hw
    · subst e; exact ⟨w, List.mem_cons_self, .refl _, hi⟩
    · obtain ⟨w', h1, h2⟩ := AgreeL.mem h hw hi hA
      exact ⟨w', List.mem_cons_of_mem _ h1, h2⟩
  | .item x x' xs ys ha h =>
    rcases List.mem_cons.mp hw with e | hw
    · subst e
      have := ha.isAST hi hA
      refine ⟨x', List.mem_append_left _ ?_, ha, this⟩
      cases x' with
      | node => simp [Markers.spliceResult]
      | list => cases this
      | const => cases this
    · obtain ⟨w', h1, h2⟩ := AgreeL.mem h hw hi hA
      exact ⟨w', List.mem_append_right _ h1, h2⟩
termination_by structural h

theorem _root_.Mcpyrate.Py.Child.cons_field {c l fs p s} (h : Child (.node c l fs) s) : Child (.node c l (p :: fs)) s := by
  cases h with
  | field h1 h2 => exact .field (List.mem_cons_of_mem _ h1) h2
  | item h1 h2 h3 => exact .item (List.mem_cons_of_mem _ h1) h2 h3

theorem AgreeF.child {c : Cls} {l : Loc} {fs fs' : Fields} {w : Val} (h : AgreeF A fs fs')
    (hw : w ∈ childNodes (.node c l fs)) (hA : ¬ A w) :
    ∃ w', Agree A w w' ∧ Child (.node c l fs') w' := by
  match h with
  | .nil => simp [childNodes] at hw
  | .const f k fs fs' h =>
    have hw' : w ∈ childNodes (.node c l fs) := by simpa [childNodes] using hw
    obtain ⟨w', h1, h2⟩ := AgreeF.child h hw' hA
    exact ⟨w', h1, h2.cons_field⟩
  | .list f xs ys fs fs' hl h =>
    have hw' : w ∈ xs.filter Val.isAST ∨ w ∈ childNodes (.node c l fs) := by
      simpa only [childNodes, List.flatMap_cons, List.mem_append] using hw
    rcases hw' with hw' | hw'
    · rw [List.mem_filter] at hw'
      obtain ⟨w', h1, h2, h3⟩ := hl.mem hw'.1 hw'.2 hA
      exact ⟨w', h2, .item List.mem_cons_self h1 h3⟩
    · obtain ⟨w', h1, h2⟩ := AgreeF.child h hw' hA
      exact ⟨w', h1, h2.cons_field⟩
  | .node f v v' fs fs' hv ha hn h =>
    cases v with
    | const => cases hv
    | list => cases hv
    | node c1 l1 gs =>
      have hw' : w = .node c1 l1 gs ∨ w ∈ childNodes (.node c l fs) := by
        simpa only [childNodes, List.flatMap_cons, List.mem_append, List.mem_singleton] using hw
      rcases hw' with hw' | hw'
      · subst hw'
        exact ⟨v', ha, .field List.mem_cons_self (ha.isAST rfl hA)⟩
      · obtain ⟨w', h1, h2⟩ := AgreeF.child h hw' hA
        exact ⟨w', h1, h2.cons_field⟩
  | .deleted f v v' fs fs' hv ha hn h =>
    cases v with
    | const => cases hv
    | list => cases hv
    | node c1 l1 gs =>
      have hw' : w = .node c1 l1 gs ∨ w ∈ childNodes (.node c l fs) := by
        simpa only [childNodes, List.flatMap_cons, List.mem_append, List.mem_singleton] using hw
      rcases hw' with hw' | hw'
      · subst hw'
        have := ha.isAST rfl hA
        cases v' with
        | const => cases this
        | list => cases this
        | node => cases hn
      · exact AgreeF.child h hw' hA
termination_by structural h

theorem Outside.not {t u : Val} (h : Outside A t u) : ¬ A t := by cases h <;> assumption

/-- A `Done`-marked part outside of the replaced parts is still there. -/
theorem Agree.kept {t u t' : Val} (ho : Outside A t u) (hd : isDone u = true) (h : Agree A t t') :
    Reach t' u := by
  induction ho generalizing t' with
  | refl t hA =>
    cases h with
    | refl => exact .refl _
    | replaced _ _ h => exact absurd h hA
    | node _ _ _ _ hn => rw [hn] at hd; cases hd
  | step hA hn hm ho ih =>
    cases h with
    | refl => exact .step (childNodes_child hm) (ih hd (.refl _))
    | replaced _ _ h => exact absurd h hA
    | node c l fs fs' _ hf =>
      obtain ⟨w', h1, h2⟩ := hf.child hm ho.not
      exact .step h2 (ih hd h1)

theorem flattenV_mem {ys : List Val} {y : Val} (h : y ∈ ys) (hi : y.isAST = true) :
    y ∈ Markers.flattenV ys := by
  induction ys with
  | nil => cases h
  | cons x xs ih =>
    rw [Markers.flattenV, List.mem_append]
    rcases List.mem_cons.mp h with e | h
    · subst e
      left
      cases y with
      | node => simp [Markers.flattenItem]
      | list => cases hi
      | const => cases hi
    · exact .inr (ih h)

theorem AgreeS.mem {xs ys : List Val} {x : Val} (h : AgreeS A xs ys) (hx : x ∈ xs) :
    ∃ y ∈ ys, Agree A x y := by
  induction h with
  | nil => cases hx
  | cons a b as bs hab _ ih =>
    rcases List.mem_cons.mp hx with e | hx
    · subst e; exact ⟨b, List.mem_cons_self, hab⟩
    · obtain ⟨y, h1, h2⟩ := ih hx; exact ⟨y, List.mem_cons_of_mem _ h1, h2⟩

theorem AgreeTop.kept {t u t' : Val} (h : AgreeTop A t t') (ho : Outside A t u)
    (hd : isDone u = true) : Reach t' u := by
  cases t with
  | node => exact Agree.kept ho hd h
  | const => exact Agree.kept ho hd h
  | list xs =>
    cases ho with
    | refl => cases hd
    | step hA hn hm ho =>
      have hm' := hm
      simp only [childNodes, List.mem_filter] at hm'
      rcases h with h | ⟨ys, h1, h2⟩
      · subst h; exact .step (childNodes_child hm) (Agree.kept ho hd (.refl _))
      · obtain ⟨y, hy, ha⟩ := h1.mem hm'.1
        have hi := ha.isAST hm'.2 ho.not
        have := flattenV_mem hy hi
        have hne : (Markers.flattenV ys).isEmpty = false := by
          cases hf : Markers.flattenV ys with
          | nil => rw [hf] at this; cases this
          | cons => rfl
        rw [hne] at h2
        subst h2
        exact .step (.elt this hi) (Agree.kept ho hd ha)

end Mcpyrate.Expander
