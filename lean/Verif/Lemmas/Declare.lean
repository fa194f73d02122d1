import Verif.Spec.Declare
/-
Lemmas for C70.
-/
namespace Mcpyrate.Declare

theorem op_snoc {P : List Op → Prop} (h0 : P []) (h1 : ∀ ops o, P ops → P (ops ++ [o])) (ops : List Op) : P ops := by
  rw [← List.reverse_reverse ops]
  induction ops.reverse with
  | nil => exact h0
  | cons a l ih => rw [List.reverse_cons]; exact h1 _ _ ih

theorem made_append (a b : List Op) : made (a ++ b) = made a ++ made b := by
  induction a with
  | nil => rfl
  | cons o a ih => cases o <;> simp [made, ih]

theorem run_snoc (ops : List Op) (o : Op) : run (ops ++ [o]) = (step (run ops) o).2 := by simp [run]

/-! ### The relations do not change for objects that have been made -/

theorem get_left {ks ks' : List Kind} {o : Nat} (h : o < ks.length) : (ks ++ ks')[o]? = ks[o]? :=
  List.getElem?_append_left h

theorem lt_of_get {ks : List Kind} {o : Nat} {k : Kind} (h : ks[o]? = some k) : o < ks.length := by
  rcases Nat.lt_or_ge o ks.length with h' | h'
  · exact h'
  · rw [List.getElem?_eq_none h'] at h; cases h

theorem get_mono {ks ks' : List Kind} {o : Nat} {k : Kind} (h : ks[o]? = some k) : (ks ++ ks')[o]? = some k := by
  rw [get_left (lt_of_get h)]; exact h

theorem IsClass.lt {ks : List Kind} {o : Nat} (h : IsClass ks o) : o < ks.length := by
  cases h with | mk h _ _ => exact lt_of_get h

theorem IsClass.mono {ks ks' : List Kind} {o : Nat} (h : IsClass ks o) : IsClass (ks ++ ks') o := by
  induction h with
  | mk h1 h2 _ ih => exact .mk (get_mono h1) h2 ih

theorem IsClass.back {ks ks' : List Kind} {o : Nat} (h : IsClass (ks ++ ks') o) : o < ks.length → IsClass ks o := by
  induction h with
  | mk h1 h2 _ ih =>
    intro hl
    rw [get_left hl] at h1
    exact .mk h1 h2 (fun b hb => ih b hb (Nat.lt_trans (h2 b hb) hl))

theorem IsInstance.mono {ks ks' : List Kind} {o c : Nat} (h : IsInstance ks o c) : IsInstance (ks ++ ks') o c :=
  ⟨get_mono h.1, h.2.1, h.2.2.mono⟩

theorem IsInstance.back {ks ks' : List Kind} {o c : Nat} (h : IsInstance (ks ++ ks') o c) (hl : o < ks.length) :
    IsInstance ks o c := by
  obtain ⟨h1, h2, h3⟩ := h
  rw [get_left hl] at h1
  exact ⟨h1, h2, h3.back (Nat.lt_trans h2 hl)⟩

theorem HasOwn.mono {ks ks' : List Kind} {o : Nat} (h : HasOwn ks o) : HasOwn (ks ++ ks') o := by
  rcases h with h | h | ⟨c, h⟩
  · exact .inl (get_mono h)
  · exact .inr (.inl h.mono)
  · exact .inr (.inr ⟨c, h.mono⟩)

theorem HasOwn.lt {ks : List Kind} {o : Nat} (h : HasOwn ks o) : o < ks.length := by
  rcases h with h | h | ⟨c, h⟩
  · exact lt_of_get h
  · exact h.lt
  · exact lt_of_get h.1

theorem HasOwn.back {ks ks' : List Kind} {o : Nat} (h : HasOwn (ks ++ ks') o) (hl : o < ks.length) : HasOwn ks o := by
  rcases h with h | h | ⟨c, h⟩
  · rw [get_left hl] at h; exact .inl h
  · exact .inr (.inl (h.back hl))
  · exact .inr (.inr ⟨c, h.back hl⟩)

theorem Sees.mono {ks ks' : List Kind} {o p : Nat} (h : Sees ks o p) : Sees (ks ++ ks') o p := by
  induction h with
  | self h => exact .self h.mono
  | base h1 h2 h3 _ ih => exact .base h1.mono (get_mono h2) h3 ih
  | inst h1 _ ih => exact .inst h1.mono ih
  | method h1 h2 _ ih => exact .method (get_mono h1) h2 ih

theorem Sees.back {ks ks' : List Kind} {o p : Nat} (h : Sees (ks ++ ks') o p) : o < ks.length → Sees ks o p := by
  induction h with
  | self h => exact fun hl => .self (h.back hl)
  | base h1 h2 h3 _ ih =>
    intro hl
    have h1' := h1.back hl
    rw [get_left hl] at h2
    refine .base h1' h2 h3 (ih ?_)
    cases h1' with
    | mk ha hb _ =>
      rw [h2] at ha; cases ha
      exact Nat.lt_trans (hb _ h3) hl
  | inst h1 _ ih =>
    intro hl
    have h1' := h1.back hl
    exact .inst h1' (ih (Nat.lt_trans h1'.2.1 hl))
  | method h1 h2 _ ih =>
    intro hl
    rw [get_left hl] at h1
    exact .method h1 h2 (ih (Nat.lt_trans h2 hl))

theorem Sees.lt {ks : List Kind} {o p : Nat} (h : Sees ks o p) : o < ks.length := by
  cases h with
  | self h => exact h.lt
  | base h _ _ _ => exact h.lt
  | inst h _ => exact lt_of_get h.1
  | method h _ _ => exact lt_of_get h

theorem Gives.mono {ks ks' : List Kind} {o p : Nat} (h : Gives ks o p) : Gives (ks ++ ks') o p := by
  induction h with
  | self h => exact .self h.mono
  | method h1 h2 _ ih => exact .method (get_mono h1) h2 ih

theorem Gives.back {ks ks' : List Kind} {o p : Nat} (h : Gives (ks ++ ks') o p) : o < ks.length → Gives ks o p := by
  induction h with
  | self h => exact fun hl => .self (h.back hl)
  | method h1 h2 _ ih =>
    intro hl
    rw [get_left hl] at h1
    exact .method h1 h2 (ih (Nat.lt_trans h2 hl))

theorem Gives.lt {ks : List Kind} {o p : Nat} (h : Gives ks o p) : o < ks.length := by
  cases h with
  | self h => exact h.lt
  | method h _ _ => exact lt_of_get h

theorem IsObject.mono {ks ks' : List Kind} {o : Nat} (h : IsObject ks o) : IsObject (ks ++ ks') o := by
  induction h with
  | own h => exact .own h.mono
  | builtin h => exact .builtin (get_mono h)
  | method h1 h2 _ ih => exact .method (get_mono h1) h2 ih

theorem IsObject.back {ks ks' : List Kind} {o : Nat} (h : IsObject (ks ++ ks') o) : o < ks.length → IsObject ks o := by
  induction h with
  | own h => exact fun hl => .own (h.back hl)
  | builtin h => intro hl; rw [get_left hl] at h; exact .builtin h
  | method h1 h2 _ ih =>
    intro hl
    rw [get_left hl] at h1
    exact .method h1 h2 (ih (Nat.lt_trans h2 hl))

theorem IsObject.lt {ks : List Kind} {o : Nat} (h : IsObject ks o) : o < ks.length := by
  cases h with
  | own h => exact h.lt
  | builtin h => exact lt_of_get h
  | method h _ _ => exact lt_of_get h

theorem Gives.isObject {ks : List Kind} {o p : Nat} (h : Gives ks o p) : IsObject ks o := by
  induction h with
  | self h => exact .own h
  | method h1 h2 _ ih => exact .method h1 h2 ih

theorem Sees.isObject {ks : List Kind} {o p : Nat} (h : Sees ks o p) : IsObject ks o := by
  induction h with
  | self h => exact .own h
  | base h _ _ _ _ => exact .own (.inr (.inl h))
  | inst h _ _ => exact .own (.inr (.inr ⟨_, h⟩))
  | method h1 h2 _ ih => exact .method h1 h2 ih

/-! ### The objects of the process -/

/-- What the process knows about an object is what the definitions say. -/
structure Fits (ks : List Kind) (o : Nat) (x : Obj) : Prop where
  kind : ks[o]? = some x.kind
  obj : IsObject ks o
  dict : ∀ p, x.dict = some p ↔ Gives ks o p
  places : ∀ p, p ∈ x.places ↔ Sees ks o p

theorem Fits.mono {ks ks' : List Kind} {o : Nat} {x : Obj} (h : Fits ks o x) : Fits (ks ++ ks') o x where
  kind := get_mono h.kind
  obj := h.obj.mono
  dict p := (h.dict p).trans ⟨.mono, fun g => g.back (lt_of_get h.kind)⟩
  places p := (h.places p).trans ⟨.mono, fun g => g.back (lt_of_get h.kind)⟩

/-- The invariant. -/
structure Inv (ks : List Kind) (h : Heap) : Prop where
  length : h.objs.length = ks.length
  fits : ∀ o x, h.get o = .ok x → Fits ks o x
  exist : ∀ o, IsObject ks o → ∃ x, h.get o = .ok x

theorem get_lt {h : Heap} {o : Nat} {x : Obj} (hx : h.get o = .ok x) : o < h.objs.length := by
  unfold Heap.get at hx
  split at hx
  · rename_i heq
    rcases Nat.lt_or_ge o h.objs.length with h' | h'
    · exact h'
    · rw [List.getElem?_eq_none h'] at heq; cases heq
  · cases hx

theorem Fits.cls {ks : List Kind} {o : Nat} {x : Obj} {bs : List Nat} (h : Fits ks o x) (hk : x.kind = .cls bs) :
    IsClass ks o := by
  have hk' := h.kind
  rw [hk] at hk'
  cases h.obj with
  | own ho =>
    rcases ho with ho | ho | ⟨c, ho⟩
    · rw [hk'] at ho; cases ho
    · exact ho
    · have := ho.1; rw [hk'] at this; cases this
  | builtin ho => rw [hk'] at ho; cases ho
  | method ho _ _ => rw [hk'] at ho; cases ho

theorem classes_ok {ks : List Kind} {h : Heap} (hi : Inv ks h) :
    ∀ {bs : List Nat} {xs : List Obj}, h.classes bs = .ok xs →
      (∀ b ∈ bs, b < ks.length ∧ IsClass ks b) ∧
        (∀ p, p ∈ xs.flatMap (·.places) ↔ ∃ b ∈ bs, Sees ks b p)
  | [], xs, hx => by
    cases hx
    simp
  | b :: bs, xs, hx => by
    unfold Heap.classes at hx
    cases hb : h.get b with
    | error e => rw [hb] at hx; cases hx
    | ok x =>
      rw [hb] at hx
      have hf := hi.fits b x hb
      cases hk : x.kind with
      | cls cs =>
        simp only [bind, Except.bind, hk] at hx
        cases hc : h.classes bs with
        | error e => rw [hc] at hx; cases hx
        | ok ys =>
          rw [hc] at hx
          cases hx
          obtain ⟨h1, h2⟩ := classes_ok hi hc
          refine ⟨?_, ?_⟩
          · intro b' hb'
            rcases List.mem_cons.mp hb' with rfl | hb'
            · exact ⟨lt_of_get hf.kind, hf.cls hk⟩
            · exact h1 b' hb'
          · intro p
            rw [List.flatMap_cons, List.mem_append, h2 p, hf.places p]
            simp
      | _ => simp only [bind, Except.bind, hk] at hx; cases hx

theorem classes_exist {ks : List Kind} {h : Heap} (hi : Inv ks h) :
    ∀ {bs : List Nat}, (∀ b ∈ bs, IsClass ks b) → ∃ xs, h.classes bs = .ok xs
  | [], _ => ⟨_, rfl⟩
  | b :: bs, hb => by
    have hc := hb b List.mem_cons_self
    obtain ⟨x, hx⟩ := hi.exist b (.own (.inr (.inl hc)))
    obtain ⟨ys, hy⟩ := classes_exist hi (fun c hc => hb c (List.mem_cons_of_mem _ hc))
    have hk := (hi.fits b x hx).kind
    cases hc with
    | mk h1 _ _ =>
      rw [h1] at hk
      injection hk with hk
      refine ⟨x :: ys, ?_⟩
      unfold Heap.classes
      simp only [hx, bind, Except.bind, ← hk, hy]
      rfl

theorem get_last {ks : List Kind} {k : Kind} : (ks ++ [k])[ks.length]? = some k := by simp

/-- A new object. -/
theorem make_ok {ks : List Kind} {h : Heap} (hi : Inv ks h) {k : Kind} {x : Obj}
    (hx : h.make ks.length k = .ok x) : Fits (ks ++ [k]) ks.length x := by
  have hg : (ks ++ [k])[ks.length]? = some k := get_last
  cases k with
  | function =>
    cases hx
    have ho : HasOwn (ks ++ [.function]) ks.length := .inl hg
    refine ⟨hg, .own ho, ?_, ?_⟩
    · intro p
      constructor
      · intro hp; cases hp; exact .self ho
      · intro hp
        cases hp with
        | self _ => rfl
        | method h1 _ _ => rw [hg] at h1; cases h1
    · intro p
      constructor
      · intro hp
        cases List.mem_singleton.mp hp; exact .self ho
      · intro hp
        cases hp with
        | self _ => exact List.mem_singleton.mpr rfl
        | base _ h1 _ _ => rw [hg] at h1; cases h1
        | inst h1 _ => have := h1.1; rw [hg] at this; cases this
        | method h1 _ _ => rw [hg] at h1; cases h1
  | builtin =>
    cases hx
    have no : ¬ HasOwn (ks ++ [.builtin]) ks.length := by
      rintro (h1 | h1 | ⟨c, h1⟩)
      · rw [hg] at h1; cases h1
      · cases h1 with | mk h1 _ _ => rw [hg] at h1; cases h1
      · have := h1.1; rw [hg] at this; cases this
    refine ⟨hg, .builtin hg, ?_, ?_⟩
    · intro p
      constructor
      · intro hp; cases hp
      · intro hp
        cases hp with
        | self h1 => exact absurd h1 no
        | method h1 _ _ => rw [hg] at h1; cases h1
    · intro p
      constructor
      · intro hp; cases hp
      · intro hp
        cases hp with
        | self h1 => exact absurd h1 no
        | base _ h1 _ _ => rw [hg] at h1; cases h1
        | inst h1 _ => have := h1.1; rw [hg] at this; cases this
        | method h1 _ _ => rw [hg] at h1; cases h1
  | cls bs =>
    simp only [Heap.make] at hx
    cases hc : h.classes bs with
    | error e => rw [hc] at hx; cases hx
    | ok xs =>
      rw [hc] at hx
      cases hx
      obtain ⟨h1, h2⟩ := classes_ok hi hc
      have hcl : IsClass (ks ++ [.cls bs]) ks.length :=
        .mk hg (fun b hb => (h1 b hb).1) (fun b hb => (h1 b hb).2.mono)
      have ho : HasOwn (ks ++ [.cls bs]) ks.length := .inr (.inl hcl)
      refine ⟨hg, .own ho, ?_, ?_⟩
      · intro p
        constructor
        · intro hp; cases hp; exact .self ho
        · intro hp
          cases hp with
          | self _ => rfl
          | method h1 _ _ => rw [hg] at h1; cases h1
      · intro p
        show p ∈ ks.length :: _ ↔ _
        rw [List.mem_cons, h2 p]
        constructor
        · rintro (rfl | ⟨b, hb, hs⟩)
          · exact .self ho
          · exact .base hcl hg hb hs.mono
        · intro hp
          cases hp with
          | self _ => exact .inl rfl
          | base _ h3 h4 h5 =>
            rw [hg] at h3; cases h3
            exact .inr ⟨_, h4, h5.back (h1 _ h4).1⟩
          | inst h1 _ => have := h1.1; rw [hg] at this; cases this
          | method h1 _ _ => rw [hg] at h1; cases h1
  | inst c =>
    simp only [Heap.make] at hx
    cases hc : h.classes [c] with
    | error e => rw [hc] at hx; cases hx
    | ok xs =>
      rw [hc] at hx
      cases hx
      obtain ⟨h1, h2⟩ := classes_ok hi hc
      have h1c := h1 c List.mem_cons_self
      have hin : IsInstance (ks ++ [.inst c]) ks.length c := ⟨hg, h1c.1, h1c.2.mono⟩
      have ho : HasOwn (ks ++ [.inst c]) ks.length := .inr (.inr ⟨c, hin⟩)
      refine ⟨hg, .own ho, ?_, ?_⟩
      · intro p
        constructor
        · intro hp; cases hp; exact .self ho
        · intro hp
          cases hp with
          | self _ => rfl
          | method h1 _ _ => rw [hg] at h1; cases h1
      · intro p
        show p ∈ ks.length :: _ ↔ _
        rw [List.mem_cons, h2 p]
        constructor
        · rintro (rfl | ⟨b, hb, hs⟩)
          · exact .self ho
          · cases List.mem_singleton.mp hb
            exact .inst hin hs.mono
        · intro hp
          cases hp with
          | self _ => exact .inl rfl
          | base _ h3 _ _ => rw [hg] at h3; cases h3
          | inst h3 h4 =>
            have := h3.1; rw [hg] at this; cases this
            exact .inr ⟨c, List.mem_cons_self, h4.back h1c.1⟩
          | method h1 _ _ => rw [hg] at h1; cases h1
  | method f =>
    simp only [Heap.make] at hx
    cases hc : h.get f with
    | error e => rw [hc] at hx; cases hx
    | ok y =>
      rw [hc] at hx
      cases hx
      have hy := hi.fits f y hc
      have hl : f < ks.length := lt_of_get hy.kind
      have no : ¬ HasOwn (ks ++ [.method f]) ks.length := by
        rintro (h1 | h1 | ⟨c, h1⟩)
        · rw [hg] at h1; cases h1
        · cases h1 with | mk h1 _ _ => rw [hg] at h1; cases h1
        · have := h1.1; rw [hg] at this; cases this
      refine ⟨hg, .method hg hl hy.obj.mono, ?_, ?_⟩
      · intro p
        refine (hy.dict p).trans ⟨fun g => .method hg hl g.mono, ?_⟩
        intro hp
        cases hp with
        | self h1 => exact absurd h1 no
        | method h1 _ h2 => rw [hg] at h1; cases h1; exact h2.back hl
      · intro p
        refine (hy.places p).trans ⟨fun g => .method hg hl g.mono, ?_⟩
        intro hp
        cases hp with
        | self h1 => exact absurd h1 no
        | base _ h1 _ _ => rw [hg] at h1; cases h1
        | inst h1 _ => have := h1.1; rw [hg] at this; cases this
        | method h1 _ h2 => rw [hg] at h1; cases h1; exact h2.back hl

/-- If the definitions say that there is an object, it is made. -/
theorem make_exist {ks : List Kind} {h : Heap} (hi : Inv ks h) {k : Kind}
    (ho : IsObject (ks ++ [k]) ks.length) : ∃ x, h.make ks.length k = .ok x := by
  have hg : (ks ++ [k])[ks.length]? = some k := get_last
  cases ho with
  | own ho =>
    rcases ho with h1 | h1 | ⟨c, h1⟩
    · rw [hg] at h1; cases h1; exact ⟨_, rfl⟩
    · cases h1 with
      | mk h1 h2 h3 =>
        rw [hg] at h1; cases h1
        obtain ⟨xs, hx⟩ := classes_exist hi (fun b hb => (h3 b hb).back (h2 b hb))
        exact ⟨_, by simp only [Heap.make]; rw [hx]; rfl⟩
    · obtain ⟨h1, h2, h3⟩ := h1
      rw [hg] at h1; cases h1
      obtain ⟨xs, hx⟩ := classes_exist (bs := [c]) hi
        (fun b hb => by cases List.mem_singleton.mp hb; exact h3.back h2)
      exact ⟨_, by simp only [Heap.make]; rw [hx]; rfl⟩
  | builtin h1 => rw [hg] at h1; cases h1; exact ⟨_, rfl⟩
  | method h1 h2 h3 =>
    rw [hg] at h1; cases h1
    obtain ⟨x, hx⟩ := hi.exist _ (h3.back h2)
    exact ⟨_, by simp only [Heap.make]; rw [hx]; rfl⟩

theorem get_append_left {h : Heap} {l : List (Option Obj)} {f : Nat → Mark → Bool} {o : Nat} (ho : o < h.objs.length) :
    Heap.get ⟨h.objs ++ l, f⟩ o = h.get o := by
  unfold Heap.get
  rw [List.getElem?_append_left ho]

theorem get_append_last {h : Heap} {x : Option Obj} {f : Nat → Mark → Bool} :
    Heap.get ⟨h.objs ++ [x], f⟩ h.objs.length = match x with | some x => .ok x | none => .error .nameError := by
  unfold Heap.get
  simp only [List.getElem?_concat_length]
  cases x <;> rfl

theorem Inv.own {ks : List Kind} {h : Heap} (hi : Inv ks h) (f : Nat → Mark → Bool) : Inv ks { h with own := f } :=
  ⟨hi.length, hi.fits, hi.exist⟩

theorem Inv.define {ks : List Kind} {h : Heap} (hi : Inv ks h) (k : Kind) :
    Inv (ks ++ [k]) (step h (.define k)).2 := by
  have hlen := hi.length
  unfold step
  simp only [hlen]
  cases hm : h.make ks.length k with
  | ok x =>
    refine ⟨by simp [hlen], ?_, ?_⟩
    · intro o y hy
      have hl := get_lt hy
      simp only [List.length_append, List.length_singleton] at hl
      rcases Nat.lt_or_eq_of_le (Nat.le_of_lt_succ hl) with hl | rfl
      · rw [get_append_left hl] at hy
        exact (hi.fits o y hy).mono
      · rw [get_append_last] at hy
        cases hy
        rw [hlen]
        exact make_ok hi hm
    · intro o ho
      have hl := ho.lt
      simp only [List.length_append, List.length_singleton] at hl
      rcases Nat.lt_or_eq_of_le (Nat.le_of_lt_succ hl) with hl | rfl
      · obtain ⟨y, hy⟩ := hi.exist o (ho.back hl)
        exact ⟨y, by rw [get_append_left (by rw [hlen]; exact hl)]; exact hy⟩
      · rw [← hlen]
        exact ⟨x, get_append_last⟩
  | error e =>
    refine ⟨by simp [hlen], ?_, ?_⟩
    · intro o y hy
      have hl := get_lt hy
      simp only [List.length_append, List.length_singleton] at hl
      rcases Nat.lt_or_eq_of_le (Nat.le_of_lt_succ hl) with hl | rfl
      · rw [get_append_left hl] at hy
        exact (hi.fits o y hy).mono
      · rw [get_append_last] at hy
        cases hy
    · intro o ho
      have hl := ho.lt
      simp only [List.length_append, List.length_singleton] at hl
      rcases Nat.lt_or_eq_of_le (Nat.le_of_lt_succ hl) with hl | rfl
      · obtain ⟨y, hy⟩ := hi.exist o (ho.back hl)
        exact ⟨y, by rw [get_append_left (by rw [hlen]; exact hl)]; exact hy⟩
      · obtain ⟨x, hx⟩ := make_exist hi ho
        rw [hm] at hx; cases hx

theorem declare_objs (h : Heap) (m : Mark) (o : Nat) : ∃ f, (declare h m o).2 = { h with own := f } := by
  unfold declare
  split
  · exact ⟨_, rfl⟩
  · split <;> exact ⟨_, rfl⟩

theorem wraps_objs (h : Heap) (g w : Nat) : ∃ f, (Declare.wraps h g w).2 = { h with own := f } := by
  unfold Declare.wraps
  split
  · split <;> exact ⟨_, rfl⟩
  · exact ⟨_, rfl⟩
  · exact ⟨_, rfl⟩

theorem inv_run (ops : List Op) : Inv (made ops) (run ops) := by
  induction ops using op_snoc with
  | h0 =>
    refine ⟨rfl, ?_, ?_⟩
    · intro o x h; cases get_lt h
    · intro o h; cases h.lt
  | h1 ops o ih =>
    rw [run_snoc, made_append]
    cases o with
    | define k => exact ih.define k
    | declare m o =>
      obtain ⟨f, hf⟩ := declare_objs (run ops) m o
      simp only [made, List.append_nil]
      show Inv _ (declare (run ops) m o).2
      rw [hf]
      exact ih.own f
    | wraps g w =>
      obtain ⟨f, hf⟩ := wraps_objs (run ops) g w
      simp only [made, List.append_nil]
      show Inv _ (Declare.wraps (run ops) g w).2
      rw [hf]
      exact ih.own f

/-! ### The marks -/

theorem Fits.settable {ks : List Kind} {o : Nat} {x : Obj} (h : Fits ks o x) : x.settable = true ↔ HasOwn ks o := by
  have hk := h.kind
  constructor
  · intro hs
    cases h.obj with
    | own ho => exact ho
    | builtin ho =>
      rw [ho] at hk
      injection hk with hk
      simp [Obj.settable, ← hk] at hs
    | method ho _ _ =>
      rw [ho] at hk
      injection hk with hk
      simp [Obj.settable, ← hk] at hs
  · rintro (h1 | h1 | ⟨c, h1⟩)
    · rw [h1] at hk; injection hk with hk; simp [Obj.settable, ← hk]
    · cases h1 with | mk h1 _ _ => rw [h1] at hk; injection hk with hk; simp [Obj.settable, ← hk]
    · have h1 := h1.1; rw [h1] at hk; injection hk with hk; simp [Obj.settable, ← hk]

theorem Fits.wrapper {ks : List Kind} {o : Nat} {x : Obj} (h : Fits ks o x) :
    x.wrapper = true ↔ (ks[o]? = some .function ∨ ∃ c, IsInstance ks o c) := by
  have hk := h.kind
  constructor
  · intro hs
    cases h.obj with
    | own ho =>
      rcases ho with h1 | h1 | h1
      · exact .inl h1
      · cases h1 with
        | mk h1 _ _ => rw [h1] at hk; injection hk with hk; simp [Obj.wrapper, ← hk] at hs
      · exact .inr h1
    | builtin ho =>
      rw [ho] at hk
      injection hk with hk
      simp [Obj.wrapper, ← hk] at hs
    | method ho _ _ =>
      rw [ho] at hk
      injection hk with hk
      simp [Obj.wrapper, ← hk] at hs
  · rintro (h1 | ⟨c, h1⟩)
    · rw [h1] at hk; injection hk with hk; simp [Obj.wrapper, ← hk]
    · have h1 := h1.1; rw [h1] at hk; injection hk with hk; simp [Obj.wrapper, ← hk]

theorem Marked.mono {ops : List Op} {m : Mark} {o : Nat} (h : Marked ops m o) (ops' : List Op) :
    Marked (ops ++ ops') m o := by
  cases h with
  | declared h => rw [List.append_assoc]; exact .declared h
  | wraps h1 h2 h3 => rw [List.append_assoc]; exact .wraps h1 h2 h3

theorem snoc_split {pre post ops : List Op} {a o : Op} (h : pre ++ a :: post = ops ++ [o]) :
    (pre = ops ∧ a = o ∧ post = []) ∨ ∃ post', post = post' ++ [o] ∧ ops = pre ++ a :: post' := by
  rcases List.eq_nil_or_concat post with rfl | ⟨post', b, rfl⟩
  · have := List.append_inj' h rfl
    exact .inl ⟨this.1, by simpa using this.2, rfl⟩
  · rw [List.concat_eq_append] at h ⊢
    rw [show pre ++ a :: (post' ++ [b]) = (pre ++ a :: post') ++ [b] by simp] at h
    have := List.append_inj' h rfl
    have hb : b = o := by simpa using this.2
    subst hb
    exact .inr ⟨post', rfl, this.1.symm⟩

/-- The last step of a history. -/
theorem marked_snoc {ops : List Op} {o : Op} {m : Mark} {p : Nat} :
    Marked (ops ++ [o]) m p ↔ Marked ops m p ∨ (o = .declare m p ∧ HasOwn (made ops) p) ∨
      ∃ g q, o = .wraps g p ∧ ((made ops)[p]? = some .function ∨ ∃ c, IsInstance (made ops) p c) ∧
        Gives (made ops) g q ∧ Marked ops m q := by
  constructor
  · intro h
    generalize hl : ops ++ [o] = l at h
    cases h with
    | declared h =>
      rcases snoc_split hl.symm with ⟨rfl, rfl, rfl⟩ | ⟨post', rfl, rfl⟩
      · exact .inr (.inl ⟨rfl, h⟩)
      · exact .inl (.declared h)
    | wraps h1 h2 h3 =>
      rcases snoc_split hl.symm with ⟨rfl, rfl, rfl⟩ | ⟨post', rfl, rfl⟩
      · exact .inr (.inr ⟨_, _, rfl, h1, h2, h3⟩)
      · exact .inl (.wraps h1 h2 h3)
  · rintro (h | ⟨rfl, h⟩ | ⟨g, q, rfl, h1, h2, h3⟩)
    · exact h.mono _
    · exact .declared h
    · exact .wraps h1 h2 h3

theorem own_run (ops : List Op) : ∀ m p, (run ops).own p m = true ↔ Marked ops m p := by
  induction ops using op_snoc with
  | h0 =>
    intro m p
    constructor
    · intro h; cases h
    · intro h
      generalize hl : ([] : List Op) = l at h
      cases h <;> simp at hl
  | h1 ops o ih =>
    intro m p
    rw [marked_snoc, run_snoc, ← ih]
    have hi := inv_run ops
    cases o with
    | define k =>
      have : (step (run ops) (.define k)).2.own = (run ops).own := by
        unfold step; simp only; split <;> rfl
      rw [this]
      simp
    | declare m' o =>
      show (declare (run ops) m' o).2.own p m = true ↔ _
      unfold declare
      cases hg : (run ops).get o with
      | error e =>
        simp only
        constructor
        · exact .inl
        · rintro (h | ⟨h, h'⟩ | ⟨g, q, h, _⟩)
          · exact h
          · cases h
            obtain ⟨x, hx⟩ := hi.exist _ (.own h')
            rw [hg] at hx; cases hx
          · cases h
      | ok x =>
        have hs := (hi.fits o x hg).settable
        simp only
        split
        · rename_i hx
          simp only [Bool.or_eq_true, Bool.and_eq_true, beq_iff_eq]
          constructor
          · rintro (h | ⟨rfl, rfl⟩)
            · exact .inl h
            · exact .inr (.inl ⟨rfl, hs.mp hx⟩)
          · rintro (h | ⟨h, _⟩ | ⟨g, q, h, _⟩)
            · exact .inl h
            · cases h; exact .inr ⟨rfl, rfl⟩
            · cases h
        · rename_i hx
          constructor
          · exact .inl
          · rintro (h | ⟨h, h'⟩ | ⟨g, q, h, _⟩)
            · exact h
            · cases h; exact absurd (hs.mpr h') hx
            · cases h
    | wraps g w =>
      show (Declare.wraps (run ops) g w).2.own p m = true ↔ _
      unfold Declare.wraps
      cases hg : (run ops).get g with
      | error e =>
        simp only
        constructor
        · exact .inl
        · rintro (h | ⟨h, h'⟩ | ⟨g', q, h, _, h2, _⟩)
          · exact h
          · cases h
          · cases h
            obtain ⟨x, hx⟩ := hi.exist _ h2.isObject
            rw [hg] at hx; cases hx
      | ok x =>
        cases hw : (run ops).get w with
        | error e =>
          simp only
          constructor
          · exact .inl
          · rintro (h | ⟨h, h'⟩ | ⟨g', q, h, h1, _, _⟩)
            · exact h
            · cases h
            · cases h
              have : IsObject (made ops) p := by
                rcases h1 with h1 | h1
                · exact .own (.inl h1)
                · exact .own (.inr (.inr h1))
              obtain ⟨x, hx⟩ := hi.exist _ this
              rw [hw] at hx; cases hx
        | ok y =>
          have hs := (hi.fits w y hw).wrapper
          have hd := (hi.fits g x hg).dict
          simp only
          split
          · rename_i hy
            simp only [Bool.or_eq_true, Bool.and_eq_true, beq_iff_eq, Option.any_eq_true]
            constructor
            · rintro (h | ⟨rfl, q, hq, hq'⟩)
              · exact .inl h
              · exact .inr (.inr ⟨g, q, rfl, hs.mp hy, (hd q).mp hq, (ih m q).mp hq'⟩)
            · rintro (h | ⟨h, _⟩ | ⟨g', q, h, _, h2, h3⟩)
              · exact .inl h
              · cases h
              · cases h
                exact .inr ⟨rfl, q, (hd q).mpr h2, (ih m q).mpr h3⟩
          · rename_i hy
            constructor
            · exact .inl
            · rintro (h | ⟨h, h'⟩ | ⟨g', q, h, h1, _, _⟩)
              · exact h
              · cases h
              · cases h; exact absurd (hs.mpr h1) hy

end Mcpyrate.Declare
