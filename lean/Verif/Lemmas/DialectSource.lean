import Verif.Spec.DialectSource
namespace Mcpyrate.Dialects
open Paths

/-- The beginning or end of a line. -/
def Edge (s : Str) : Prop := s.head? = none ∨ s.head? = some '\n'

/-- What the items match, without regard to which match comes first. -/
inductive Match : List Item → Str → Str → Str → Prop
  | nil {b r} : Match [] b [] r
  | bol {is b x r} : Edge b → Match is b x r → Match (.bol :: is) b x r
  | eol {is b x r} : Edge (x ++ r) → Match is b x r → Match (.eol :: is) b x r
  | one {is p b c x r} : p c = true → Match is (c :: b) x r → Match (.one p :: is) b (c :: x) r
  | many {is p b y x r} : (∀ c ∈ y, p c = true) → Match is (y.reverse ++ b) x r → Match (.many p :: is) b (y ++ x) r

theorem rep_some {R : Type} {p : Char → Bool} {k : Str → Str → Option R} {b r : Str} {v : R}
    (h : rep p k b r = some v) :
    ∃ y r1, r = y ++ r1 ∧ (∀ c ∈ y, p c = true) ∧ k (y.reverse ++ b) r1 = some v := by
  induction r generalizing b with
  | nil => exact ⟨[], [], rfl, by simp, h⟩
  | cons c r ih =>
    rw [rep] at h
    split at h
    · rename_i hc
      cases hr : rep p k (c :: b) r with
      | none => rw [hr] at h; exact ⟨[], c :: r, rfl, by simp, h⟩
      | some v' =>
        rw [hr] at h
        cases h
        obtain ⟨y, r1, rfl, h2, h3⟩ := ih hr
        refine ⟨c :: y, r1, rfl, fun d hd => ?_, by simpa using h3⟩
        rcases List.mem_cons.1 hd with rfl | hd
        · exact hc
        · exact h2 d hd
    · exact ⟨[], c :: r, rfl, by simp, h⟩

theorem rep_isSome {R : Type} {p : Char → Bool} {k : Str → Str → Option R} {b y r1 : Str}
    (hy : ∀ c ∈ y, p c = true) (h : (k (y.reverse ++ b) r1).isSome = true) : (rep p k b (y ++ r1)).isSome = true := by
  induction y generalizing b with
  | nil =>
    cases r1 with
    | nil => exact h
    | cons c r =>
      rw [List.nil_append, rep]
      split
      · cases hr : rep p k (c :: b) r with
        | none => exact h
        | some v => rfl
      · exact h
  | cons c y ih =>
    rw [List.cons_append, rep, if_pos (hy c (by simp))]
    have := ih (b := c :: b) (fun d hd => hy d (by simp [hd])) (by simpa using h)
    cases hr : rep p k (c :: b) (y ++ r1) with
    | none => rw [hr] at this; cases this
    | some v => rfl

theorem run_some {is : List Item} {b r b' r' : Str} (h : run is b r = some (b', r')) :
    ∃ x, r = x ++ r' ∧ Match is b x r' := by
  induction is generalizing b r with
  | nil => cases h; exact ⟨[], rfl, .nil⟩
  | cons i is ih =>
    cases i with
    | bol =>
      rw [run] at h
      split at h
      · rename_i he
        obtain ⟨x, h1, h2⟩ := ih h
        exact ⟨x, h1, .bol he h2⟩
      · cases h
    | eol =>
      rw [run] at h
      split at h
      · rename_i he
        obtain ⟨x, h1, h2⟩ := ih h
        exact ⟨x, h1, .eol (h1 ▸ he) h2⟩
      · cases h
    | one p =>
      cases r with
      | nil => cases h
      | cons c r =>
        change (if p c = true then run is (c :: b) r else none) = _ at h
        split at h
        · rename_i hc
          obtain ⟨x, h1, h2⟩ := ih h
          exact ⟨_, by rw [h1]; rfl, .one hc h2⟩
        · cases h
    | many p =>
      rw [run] at h
      obtain ⟨y, r1, rfl, h2, h3⟩ := rep_some h
      obtain ⟨x, h4, h5⟩ := ih h3
      exact ⟨y ++ x, by simp [h4], .many h2 h5⟩

theorem run_isSome {is : List Item} {b x r : Str} (h : Match is b x r) : (run is b (x ++ r)).isSome = true := by
  induction h with
  | nil => rfl
  | bol he _ ih => rw [run, if_pos (show _ ∨ _ from he)]; exact ih
  | eol he _ ih => rw [run, if_pos (show _ ∨ _ from he)]; exact ih
  | one hc _ ih => rw [List.cons_append, run]; simp only [hc, if_true]; exact ih
  | @many is p b y x r hy _ ih => rw [run, List.append_assoc]; exact rep_isSome hy ih

theorem match_append {is js : List Item} {b x r : Str} :
    Match (is ++ js) b x r ↔ ∃ x1 x2, x = x1 ++ x2 ∧ Match is b x1 (x2 ++ r) ∧ Match js (x1.reverse ++ b) x2 r := by
  induction is generalizing b x with
  | nil =>
    constructor
    · intro h; exact ⟨[], x, rfl, .nil, h⟩
    · rintro ⟨x1, x2, rfl, h1, h2⟩; cases h1; exact h2
  | cons i is ih =>
    rw [List.cons_append]
    constructor
    · intro h
      cases h with
      | bol he h =>
        obtain ⟨x1, x2, rfl, h1, h2⟩ := ih.1 h
        exact ⟨x1, x2, rfl, .bol he h1, h2⟩
      | eol he h =>
        obtain ⟨x1, x2, rfl, h1, h2⟩ := ih.1 h
        exact ⟨x1, x2, rfl, .eol (by simpa using he) h1, h2⟩
      | @one _ _ _ c _ _ hc h =>
        obtain ⟨x1, x2, rfl, h1, h2⟩ := ih.1 h
        exact ⟨c :: x1, x2, rfl, .one hc h1, by simpa using h2⟩
      | @many _ _ _ y _ _ hy h =>
        obtain ⟨x1, x2, rfl, h1, h2⟩ := ih.1 h
        exact ⟨y ++ x1, x2, by simp, .many hy h1, by simpa using h2⟩
    · rintro ⟨x1, x2, rfl, h1, h2⟩
      cases h1 with
      | bol he h => exact .bol he (ih.2 ⟨_, _, rfl, h, h2⟩)
      | eol he h => exact .eol (by simpa using he) (ih.2 ⟨_, _, rfl, h, h2⟩)
      | one hc h =>
        rw [List.cons_append]
        exact .one hc (ih.2 ⟨_, _, rfl, h, by simpa using h2⟩)
      | many hy h =>
        rw [List.append_assoc]
        exact .many hy (ih.2 ⟨_, _, rfl, h, by simpa using h2⟩)

theorem match_chars {l : Str} {b x r : Str} : Match (l.map fun c => .one (· == c)) b x r ↔ x = l := by
  induction l generalizing b x with
  | nil =>
    constructor
    · intro h; cases h; rfl
    · rintro rfl; exact .nil
  | cons c l ih =>
    constructor
    · intro h
      cases h with
      | one hc h => rw [ih.1 h, eq_of_beq hc]
    · rintro rfl; exact .one (beq_self_eq_true c) (ih.2 rfl)

theorem match_lit {s : String} {b x r : Str} : Match (lit s) b x r ↔ x = s.toList := match_chars

theorem match_plus {p : Char → Bool} {b x r : Str} : Match (plus p) b x r ↔ x ≠ [] ∧ ∀ c ∈ x, p c = true := by
  constructor
  · intro h
    cases h with
    | one hc h =>
      cases h with
      | many hy h =>
        cases h
        refine ⟨by simp, fun d hd => ?_⟩
        rcases List.mem_cons.1 hd with rfl | hd
        · exact hc
        · exact hy d (by simpa using hd)
  · rintro ⟨h1, h2⟩
    cases x with
    | nil => exact absurd rfl h1
    | cons c x =>
      have := Match.many (is := []) (p := p) (b := c :: b) (y := x) (x := []) (r := r)
        (fun d hd => h2 d (by simp [hd])) .nil
      rw [List.append_nil] at this
      exact .one (h2 c (by simp)) this

/-- The regular expression. -/
theorem match_dialectimport {b x r : Str} : Match dialectimport b x r ↔ Edge b ∧ Edge r ∧ ∃ s1 g1 s2 s3 g2 s4,
    x = "from".toList ++ (s1 ++ (g1 ++ (s2 ++ ("import dialects,".toList ++ (s3 ++ (g2 ++ s4)))))) ∧
    (s1 ≠ [] ∧ ∀ c ∈ s1, isSpace c = true) ∧ (g1 ≠ [] ∧ ∀ c ∈ g1, isModChar c = true) ∧
    (s2 ≠ [] ∧ ∀ c ∈ s2, isSpace c = true) ∧ (s3 ≠ [] ∧ ∀ c ∈ s3, isSpace c = true) ∧
    (g2 ≠ [] ∧ ∀ c ∈ g2, isNameChar c = true) ∧ ∀ c ∈ s4, isSpace c = true := by
  unfold dialectimport
  constructor
  · intro h
    cases h with
    | bol he h =>
      simp only [List.append_assoc] at h
      obtain ⟨_, _, rfl, h1, h⟩ := match_append.1 h
      obtain ⟨_, _, rfl, h2, h⟩ := match_append.1 h
      obtain ⟨_, _, rfl, h3, h⟩ := match_append.1 h
      obtain ⟨_, _, rfl, h4, h⟩ := match_append.1 h
      obtain ⟨_, _, rfl, h5, h⟩ := match_append.1 h
      obtain ⟨_, _, rfl, h6, h⟩ := match_append.1 h
      obtain ⟨_, _, rfl, h7, h⟩ := match_append.1 h
      cases h with
      | many h8 h =>
        cases h with
        | eol h9 h =>
          cases h
          have e1 := match_lit.1 h1
          have e5 := match_lit.1 h5
          subst e1
          subst e5
          exact ⟨he, h9, _, _, _, _, _, _, by rw [List.append_nil], match_plus.1 h2, match_plus.1 h3, match_plus.1 h4,
            match_plus.1 h6, match_plus.1 h7, h8⟩
  · rintro ⟨he, hr, s1, g1, s2, s3, g2, s4, rfl, h2, h3, h4, h6, h7, h8⟩
    refine .bol he ?_
    simp only [List.append_assoc]
    refine match_append.2 ⟨_, _, rfl, match_lit.2 rfl, ?_⟩
    refine match_append.2 ⟨_, _, rfl, match_plus.2 h2, ?_⟩
    refine match_append.2 ⟨_, _, rfl, match_plus.2 h3, ?_⟩
    refine match_append.2 ⟨_, _, rfl, match_plus.2 h4, ?_⟩
    refine match_append.2 ⟨_, _, rfl, match_lit.2 rfl, ?_⟩
    refine match_append.2 ⟨_, _, rfl, match_plus.2 h6, ?_⟩
    refine match_append.2 ⟨_, _, rfl, match_plus.2 h7, ?_⟩
    have := Match.many (is := [.eol]) (p := isSpace) (y := s4) (x := []) (r := r)
      (b := g2.reverse ++ (s3.reverse ++ ("import dialects,".toList.reverse ++ (s2.reverse ++ (g1.reverse ++
        (s1.reverse ++ ("from".toList.reverse ++ b))))))) h8 (.eol hr .nil)
    rw [List.append_nil] at this
    exact this

/-! Characters. -/

theorem space_not_mod {c : Char} (h : isSpace c = true) : isModChar c = false := by
  simp only [isSpace, isModChar, Bool.or_eq_true, Bool.and_eq_true, decide_eq_true_eq, beq_iff_eq,
    Bool.or_eq_false_iff, Bool.and_eq_false_iff, decide_eq_false_iff_not, beq_eq_false_iff_ne, Char.le_def,
    UInt32.le_iff_toNat_le, ne_eq] at h ⊢
  have hc : c.toNat = c.val.toNat := rfl
  have e : ∀ d : Char, c = d → c.toNat = d.toNat := fun d h => by rw [h]
  have e1 : ('0' : Char).val.toNat = 48 := rfl
  have e2 : ('9' : Char).val.toNat = 57 := rfl
  have e3 : ('a' : Char).val.toNat = 97 := rfl
  have e4 : ('z' : Char).val.toNat = 122 := rfl
  have e5 : ('A' : Char).val.toNat = 65 := rfl
  have d1 : c ≠ '.' := fun h' => by have := e _ h'; have e6 : ('.' : Char).toNat = 46 := rfl; omega
  have d2 : c ≠ '_' := fun h' => by have := e _ h'; have e6 : ('_' : Char).toNat = 95 := rfl; omega
  refine ⟨⟨⟨⟨d1, ?_⟩, ?_⟩, ?_⟩, d2⟩ <;> omega

theorem moduleChar_mod {c : Char} (h : ModuleChar c) : isModChar c = true := by
  unfold ModuleChar at h
  rcases h with rfl | h | rfl
  · rfl
  · simp only [Char.isAlphanum, Char.isAlpha, Char.isUpper, Char.isLower, Char.isDigit, Bool.or_eq_true,
      Bool.and_eq_true, decide_eq_true_eq, ge_iff_le] at h
    simp only [isModChar, Bool.or_eq_true, Bool.and_eq_true, decide_eq_true_eq, beq_iff_eq, Char.le_def,
      UInt32.le_iff_toNat_le] at h ⊢
    have e1 : ('0' : Char).val.toNat = 48 := rfl
    have e2 : ('9' : Char).val.toNat = 57 := rfl
    have e3 : ('a' : Char).val.toNat = 97 := rfl
    have e4 : ('z' : Char).val.toNat = 122 := rfl
    have e5 : ('A' : Char).val.toNat = 65 := rfl
    have e12 : ('Z' : Char).val.toNat = 90 := rfl
    have e6 : (65 : UInt32).toNat = 65 := rfl
    have e7 : (90 : UInt32).toNat = 90 := rfl
    have e8 : (97 : UInt32).toNat = 97 := rfl
    have e9 : (122 : UInt32).toNat = 122 := rfl
    have e10 : (48 : UInt32).toNat = 48 := rfl
    have e11 : (57 : UInt32).toNat = 57 := rfl
    rcases h with (h | h) | h
    · exact .inl (.inr (by omega))
    · exact .inl (.inl (.inr (by omega)))
    · exact .inl (.inl (.inl (.inr (by omega))))
  · rfl

theorem space_name {c : Char} (h : isSpace c = true) : isNameChar c = true := by
  have h1 : c ≠ '(' := by rintro rfl; revert h; decide
  have h2 : c ≠ '\\' := by rintro rfl; revert h; decide
  simp [isNameChar, h1, h2]

/-- Two ways to split off a prefix of characters of one kind, followed by one of another kind. -/
theorem span_unique {p : Char → Bool} {a a' y y' : Str} (h : a ++ y = a' ++ y') (ha : ∀ c ∈ a, p c = true)
    (ha' : ∀ c ∈ a', p c = true) (hy : ∃ c, y.head? = some c ∧ p c = false)
    (hy' : ∃ c, y'.head? = some c ∧ p c = false) : a = a' ∧ y = y' := by
  induction a generalizing a' with
  | nil =>
    cases a' with
    | nil => exact ⟨rfl, h⟩
    | cons c a' =>
      obtain ⟨d, hd, hp⟩ := hy
      rw [List.nil_append] at h
      rw [h] at hd
      cases hd
      rw [ha' c (by simp)] at hp
      cases hp
  | cons c a ih =>
    cases a' with
    | nil =>
      obtain ⟨d, hd, hp⟩ := hy'
      rw [List.nil_append] at h
      rw [← h] at hd
      cases hd
      rw [ha c (by simp)] at hp
      cases hp
    | cons c' a' =>
      simp only [List.cons_append, List.cons.injEq] at h
      obtain ⟨rfl, h⟩ := h
      obtain ⟨rfl, h2⟩ := ih h (fun d hd => ha d (by simp [hd])) (fun d hd => ha' d (by simp [hd]))
      exact ⟨rfl, h2⟩

theorem head_append {a b : Str} (h : a ≠ []) : (a ++ b).head? = a.head? := by
  cases a with
  | nil => exact absurd rfl h
  | cons c a => rfl

theorem head_mem {a : Str} (h : a ≠ []) : ∃ c, a.head? = some c ∧ c ∈ a := by
  cases a with
  | nil => exact absurd rfl h
  | cons c a => exact ⟨c, rfl, by simp⟩

/-! Where there is no match. -/

theorem run_none {b r : Str} (h : ∀ x r', r = x ++ r' → ¬ Match dialectimport b x r') :
    run dialectimport b r = none := by
  cases hr : run dialectimport b r with
  | none => rfl
  | some v =>
    obtain ⟨b', r'⟩ := v
    obtain ⟨x, h1, h2⟩ := run_some hr
    exact absurd h2 (h x r' h1)

theorem run_not_edge {b r : Str} (h : ¬ Edge b) : run dialectimport b r = none :=
  run_none fun _ _ _ hm => h (match_dialectimport.1 hm).1

theorem run_char {b r : Str} {c : Char} (h : c ≠ 'f') : run dialectimport b (c :: r) = none :=
  run_none fun x r' hx hm => by
    obtain ⟨_, _, s1, g1, s2, s3, g2, s4, rfl, _⟩ := match_dialectimport.1 hm
    exact h (List.cons.inj hx).1

theorem scan_cons {b r : Str} {c : Char} (h : run dialectimport b (c :: r) = none) :
    scan 0 b (c :: r) = scan 0 (c :: b) r := by
  rw [scan, h]

theorem scan_skip (x : Str) (b r : Str) : scan x.length b (x ++ r) = scan 0 (x.reverse ++ b) r := by
  induction x generalizing b with
  | nil => rfl
  | cons c x ih =>
    rw [List.length_cons, List.cons_append, scan, ih]
    simp

theorem scan_chars {x : Str} (h : ∀ c ∈ x, c ≠ 'f') (b r : Str) : scan 0 b (x ++ r) = scan 0 (x.reverse ++ b) r := by
  induction x generalizing b with
  | nil => rfl
  | cons c x ih =>
    rw [List.cons_append, scan_cons (run_char (h c (by simp))), ih (fun d hd => h d (by simp [hd]))]
    simp

/-- The rest of a line. -/
theorem scan_inside {l : Str} (h : '\n' ∉ l) (b r : Str) (hb : ¬ Edge b) :
    scan 0 b (l ++ r) = scan 0 (l.reverse ++ b) r := by
  induction l generalizing b with
  | nil => rfl
  | cons c l ih =>
    simp only [List.mem_cons, not_or] at h
    rw [List.cons_append, scan_cons (run_not_edge hb), ih h.2]
    · simp
    · rintro (h' | h')
      · cases h'
      · simp only [List.head?_cons, Option.some.injEq] at h'
        exact h.1 h'.symm

theorem prefix_of_line {p l r : Str} (hp : '\n' ∉ p) (hr : Edge r) (h : p <+: l ++ r) : p <+: l := by
  obtain ⟨t, h⟩ := h
  rcases List.append_eq_append_iff.1 h with ⟨a, h1, h2⟩ | ⟨a, h1, h2⟩
  · exact ⟨a, h1.symm⟩
  · cases a with
    | nil => exact ⟨[], by simpa using h1⟩
    | cons c a =>
      exfalso
      rw [h2] at hr
      rcases hr with hr | hr
      · cases hr
      · simp only [List.cons_append, List.head?_cons, Option.some.injEq] at hr
        subst hr
        exact hp (by rw [h1]; simp)

theorem run_ordinary {l b r : Str} (hl : Ordinary l) (hr : Edge r) : run dialectimport b (l ++ r) = none :=
  run_none fun x r' hx hm => by
    obtain ⟨_, _, s1, g1, s2, s3, g2, s4, rfl, h1, h2, h3, _⟩ := match_dialectimport.1 hm
    rcases hl with hl | ⟨c, t, rfl, hc⟩ | ⟨w1, m, w2, rest, rfl, b1, n1, b2, n2, n3, hm', hrest, nr, hno⟩
    · refine hl (prefix_of_line (by decide) hr ?_)
      rw [hx]
      exact ⟨_, (List.append_assoc _ _ _).symm⟩
    · rw [List.append_assoc, List.append_assoc] at hx
      have := List.append_cancel_left hx
      obtain ⟨d, hd, hm⟩ := head_mem h1.1
      rw [List.append_assoc, List.cons_append] at this
      have h' := congrArg List.head? this
      rw [head_append h1.1, hd] at h'
      cases h'
      rw [h1.2 _ hm] at hc
      cases hc
    · simp only [List.append_assoc] at hx
      have hx1 := List.append_cancel_left hx
      have hmod : ∀ {g : Str} {y : Str}, g ≠ [] → (∀ c ∈ g, isModChar c = true) →
          ∃ c, (g ++ y).head? = some c ∧ isSpace c = false := by
        intro g y hg h
        obtain ⟨d, hd, hm⟩ := head_mem hg
        refine ⟨d, by rw [head_append hg, hd], ?_⟩
        cases hs : isSpace d with
        | false => rfl
        | true => have := h d hm; rw [space_not_mod hs] at this; cases this
      have hnsp : ∀ {g : Str} {y : Str}, g ≠ [] → (∀ c ∈ g, isSpace c = false) →
          ∃ c, (g ++ y).head? = some c ∧ isSpace c = false := by
        intro g y hg h
        obtain ⟨d, hd, hm⟩ := head_mem hg
        exact ⟨d, by rw [head_append hg, hd], h d hm⟩
      have hsp : ∀ {g : Str} {y : Str}, g ≠ [] → (∀ c ∈ g, isSpace c = true) →
          ∃ c, (g ++ y).head? = some c ∧ (!isSpace c) = false := by
        intro g y hg h
        obtain ⟨d, hd, hm⟩ := head_mem hg
        exact ⟨d, by rw [head_append hg, hd], by simp [h d hm]⟩
      obtain ⟨rfl, hx2⟩ := span_unique (p := isSpace) hx1 (fun c hc => (b1 c hc).1) h1.2 (hnsp n3 hm') (hmod h2.1 h2.2)
      have hg1 : ∀ c ∈ g1, (!isSpace c) = true := by
        intro c hc
        cases hs : isSpace c with
        | false => rfl
        | true => have := h2.2 c hc; rw [space_not_mod hs] at this; cases this
      obtain ⟨rfl, hx3⟩ := span_unique (p := fun c => !isSpace c) hx2 (fun c hc => by simp [hm' c hc]) hg1
        (hsp n2 (fun c hc => (b2 c hc).1)) (hsp h3.1 h3.2)
      obtain ⟨rfl, hx4⟩ := span_unique (p := isSpace) hx3 (fun c hc => (b2 c hc).1) h3.2 (by
          obtain ⟨d, hd, _⟩ := head_mem nr
          exact ⟨d, by rw [head_append nr, hd], hrest d hd⟩) ⟨'i', rfl, by decide⟩
      exact hno (prefix_of_line (by decide) hr ⟨_, hx4.symm⟩)

theorem scan_ordinary {l b r : Str} (hl : Ordinary l) (hn : '\n' ∉ l) (hr : Edge r) :
    scan 0 b (l ++ r) = scan 0 (l.reverse ++ b) r := by
  cases l with
  | nil => rfl
  | cons c l =>
    simp only [List.mem_cons, not_or] at hn
    rw [List.cons_append, scan_cons (r := l ++ r) (run_ordinary hl hr), scan_inside hn.2]
    · simp
    · rintro (h' | h')
      · cases h'
      · simp only [List.head?_cons, Option.some.injEq] at h'
        exact hn.1 h'.symm

/-! Where there is one. -/

/-- What comes after the first line. -/
def tail : List Str → Str
  | [] => []
  | ls => '\n' :: unlines ls

theorem unlines_cons (l : Str) (ls : List Str) : unlines (l :: ls) = l ++ tail ls := by
  cases ls with
  | nil => simp [unlines, tail]
  | cons x xs => rfl

theorem tail_edge (ls : List Str) : Edge (tail ls) := by
  cases ls with
  | nil => exact .inl rfl
  | cons x xs => exact .inr rfl

theorem Stops.tail {l : Str} {ls : List Str} (h : Stops (l :: ls)) (hb : Blank l) : Stops ls := by
  intro pre x post hx hpre hn
  refine h (l :: pre) x post (by rw [hx]; rfl) (fun b hm => ?_) hn
  rcases List.mem_cons.1 hm with rfl | hm
  · exact hb
  · exact hpre b hm

theorem stops_prefix {ls : List Str} (hs : Stops ls) (hn : ∀ l ∈ ls, '\n' ∉ l) {z r' : Str}
    (h : unlines ls = z ++ r') (hr : Edge r') (hz : ∀ c ∈ z, isNameChar c = true) : ∀ c ∈ z, isSpace c = true := by
  induction ls generalizing z with
  | nil =>
    have : z = [] := by
      cases z with
      | nil => rfl
      | cons c z => cases h
    subst this
    simp
  | cons l ls ih =>
    rw [unlines_cons] at h
    by_cases hb : Blank l
    · rcases List.append_eq_append_iff.1 h with ⟨a, rfl, h2⟩ | ⟨a, h1, _⟩
      · intro c hc
        rcases List.mem_append.1 hc with hc | hc
        · exact (hb c hc).1
        · cases ls with
          | nil => 
            have : a = [] := by
              cases a with
              | nil => rfl
              | cons c z => cases h2
            subst this
            cases hc
          | cons x xs =>
            cases a with
            | nil => cases hc
            | cons d a =>
              simp only [Dialects.tail, List.cons_append, List.cons.injEq] at h2
              obtain ⟨rfl, h2⟩ := h2
              rcases List.mem_cons.1 hc with rfl | hc
              · decide
              · exact ih (hs.tail hb) (fun l hl => hn l (by simp [hl])) h2
                  (fun c hc => hz c (by simp [hc])) c hc
      · intro c hc
        exact (hb c (by rw [h1]; simp [hc])).1
    · have hq := hs [] l ls rfl (by simp) hb
      rcases List.append_eq_append_iff.1 h with ⟨a, rfl, h2⟩ | ⟨a, h1, h2⟩
      · exfalso
        rcases hq with hq | hq <;> exact absurd (hz _ (List.mem_append.2 (.inl hq))) (by decide)
      · cases a with
        | nil =>
          exfalso
          rw [List.append_nil] at h1
          subst h1
          rcases hq with hq | hq <;> exact absurd (hz _ hq) (by decide)
        | cons d a =>
          exfalso
          rw [h2] at hr
          rcases hr with hr | hr
          · cases hr
          · simp only [List.cons_append, List.head?_cons, Option.some.injEq] at hr
            subst hr
            exact hn l (by simp) (by rw [h1]; simp)

theorem dialect_match {s trail : Str} {ls : List Str} {b x r' : Str} (hs : DialectStmt s) (hb : Blank trail)
    (hstop : Stops ls) (hn : ∀ l ∈ ls, '\n' ∉ l) (hx : s ++ (trail ++ tail ls) = x ++ r')
    (hm : Match dialectimport b x r') : ∃ z, x = s ++ z ∧ ∀ c ∈ z, isSpace c = true := by
  obtain ⟨_, her, s1, g1, s2, s3, g2, s4, rfl, h1, h2, h3, h4, h5, h6⟩ := match_dialectimport.1 hm
  obtain ⟨w1, m, w2, w3, ns, rfl, b1, n1, b2, n2, b3, n3, n4, hmod, n5, hns, hlast⟩ := hs
  simp only [List.append_assoc] at hx
  have hx1 := List.append_cancel_left hx
  have hmod' : ∀ {g : Str} {y : Str}, g ≠ [] → (∀ c ∈ g, isModChar c = true) →
      ∃ c, (g ++ y).head? = some c ∧ isSpace c = false := by
    intro g y hg h
    obtain ⟨d, hd, hm⟩ := head_mem hg
    refine ⟨d, by rw [head_append hg, hd], ?_⟩
    cases hs : isSpace d with
    | false => rfl
    | true => have := h d hm; rw [space_not_mod hs] at this; cases this
  have hsp : ∀ {g : Str} {y : Str}, g ≠ [] → (∀ c ∈ g, isSpace c = true) →
      ∃ c, (g ++ y).head? = some c ∧ isModChar c = false := by
    intro g y hg h
    obtain ⟨d, hd, hm⟩ := head_mem hg
    exact ⟨d, by rw [head_append hg, hd], space_not_mod (h d hm)⟩
  have hmm : ∀ c ∈ m, isModChar c = true := fun c hc => moduleChar_mod (hmod c hc)
  obtain ⟨rfl, hx2⟩ := span_unique (p := isSpace) hx1 (fun c hc => (b1 c hc).1) h1.2 (hmod' n4 hmm) (hmod' h2.1 h2.2)
  obtain ⟨rfl, hx3⟩ := span_unique (p := isModChar) hx2 hmm h2.2 (hsp n2 (fun c hc => (b2 c hc).1)) (hsp h3.1 h3.2)
  obtain ⟨rfl, hx4⟩ := span_unique (p := isSpace) hx3 (fun c hc => (b2 c hc).1) h3.2 ⟨'i', rfl, by decide⟩
    ⟨'i', rfl, by decide⟩
  have hx5 := List.append_cancel_left hx4
  -- the rest of the line
  have hy : ∀ c ∈ s3 ++ (g2 ++ s4), isNameChar c = true := by
    intro c hc
    simp only [List.mem_append] at hc
    rcases hc with hc | hc | hc
    · exact space_name (h4.2 c hc)
    · exact h5.2 c hc
    · exact space_name (h6 c hc)
  have hx' : (w3 ++ ns) ++ (trail ++ tail ls) = (s3 ++ (g2 ++ s4)) ++ r' := by simpa using hx5
  rcases List.append_eq_append_iff.1 hx' with ⟨z, hz1, hz2⟩ | ⟨z, hz1, hz2⟩
  · refine ⟨z, by rw [hz1]; simp, ?_⟩
    have hz : ∀ c ∈ z, isNameChar c = true := fun c hc => hy c (by rw [hz1]; simp [hc])
    rw [← unlines_cons] at hz2
    refine stops_prefix (ls := trail :: ls) ?_ ?_ hz2 her hz
    · intro pre l post he hpre hnb
      cases pre with
      | nil => cases he; exact absurd hb hnb
      | cons p pre =>
        simp only [List.cons_append, List.cons.injEq] at he
        exact hstop pre l post he.2 (fun b h => hpre b (by simp [h])) hnb
    · intro l hl
      rcases List.mem_cons.1 hl with rfl | hl
      · exact fun h => (hb _ h).2 rfl
      · exact hn l hl
  · cases z with
    | nil => exact ⟨[], by rw [List.append_nil] at hz1 ⊢; rw [← hz1], by simp⟩
    | cons d z =>
      exfalso
      rw [hz2] at her
      rcases her with hr | hr
      · cases hr
      · simp only [List.cons_append, List.head?_cons, Option.some.injEq] at hr
        subst hr
        have : '\n' ∈ w3 ++ ns := by rw [hz1]; simp
        rcases List.mem_append.1 this with h | h
        · exact (b3 _ h).2 rfl
        · exact (hns _ h).1 rfl

theorem dialect_matches {s trail : Str} {b r : Str} (hs : DialectStmt s) (hb : Blank trail) (he : Edge b)
    (hr : Edge r) : Match dialectimport b (s ++ trail) r := by
  obtain ⟨w1, m, w2, w3, ns, rfl, b1, n1, b2, n2, b3, n3, n4, hmod, n5, hns, hlast⟩ := hs
  refine match_dialectimport.2 ⟨he, hr, w1, m, w2, w3, ns, trail, by simp, ⟨n1, fun c hc => (b1 c hc).1⟩,
    ⟨n4, fun c hc => moduleChar_mod (hmod c hc)⟩, ⟨n2, fun c hc => (b2 c hc).1⟩, ⟨n3, fun c hc => (b3 c hc).1⟩,
    ⟨n5, fun c hc => ?_⟩, fun c hc => (hb c hc).1⟩
  have := hns c hc
  simp [isNameChar, this.2.1, this.2.2]

theorem strip_stmt {s z : Str} (hs : DialectStmt s) (hz : ∀ c ∈ z, isSpace c = true) : strip (s ++ z) = s := by
  obtain ⟨w1, m, w2, w3, ns, rfl, b1, n1, b2, n2, b3, n3, n4, hmod, n5, hns, hlast⟩ := hs
  obtain ⟨ns', c, rfl⟩ : ∃ ns' c, ns = ns' ++ [c] := ⟨ns.dropLast, ns.getLast n5, (List.dropLast_concat_getLast n5).symm⟩
  have hc : isSpace c = false := by
    have := hlast n5
    simpa using this
  unfold strip
  have h1 : ∀ y : Str, ("from".toList ++ y).dropWhile isSpace = "from".toList ++ y := by
    intro y
    exact List.dropWhile_cons_of_neg (by decide)
  rw [List.append_assoc, h1]
  have h2 : ("from".toList ++ (w1 ++ (m ++ (w2 ++ ("import dialects,".toList ++ (w3 ++ (ns' ++ [c])))))) ++ z).reverse =
      z.reverse ++ (c :: ("from".toList ++ (w1 ++ (m ++ (w2 ++ ("import dialects,".toList ++ (w3 ++ ns')))))).reverse) := by
    simp
  rw [← List.append_assoc, h2, List.dropWhile_append_of_pos (by simpa using hz),
    List.dropWhile_cons_of_neg (by simp [hc])]
  simp

theorem scan_dialect {s trail b : Str} {ls : List Str} (hs : DialectStmt s) (hb : Blank trail)
    (hstop : Stops ls) (hn : ∀ l ∈ ls, '\n' ∉ l) (he : Edge b) :
    scan 0 b (s ++ (trail ++ tail ls)) = (lineno b, s) :: scan 0 (trail.reverse ++ (s.reverse ++ b)) (tail ls) := by
  have hsome := run_isSome (dialect_matches hs hb he (tail_edge ls))
  rw [List.append_assoc] at hsome
  obtain ⟨⟨b', r'⟩, hrun⟩ := Option.isSome_iff_exists.1 hsome
  obtain ⟨x, hx, hm⟩ := run_some hrun
  obtain ⟨z, rfl, hz⟩ := dialect_match hs hb hstop hn hx hm
  obtain ⟨c, s', rfl⟩ : ∃ c s', s = c :: s' := by
    obtain ⟨w1, m, w2, w3, ns, rfl, _⟩ := hs
    exact ⟨_, _, rfl⟩
  rw [List.append_assoc] at hx
  have hx1 := List.append_cancel_left hx
  have hlen : ∀ y : Str, (y ++ (z ++ r')).length - r'.length = (y ++ z).length := by
    intro y; simp; omega
  rw [hx1] at hrun ⊢
  rw [List.cons_append, scan]
  rw [List.cons_append] at hrun
  rw [hrun]
  dsimp only
  have ht : List.take ((c :: (s' ++ (z ++ r'))).length - r'.length) (c :: (s' ++ (z ++ r'))) = (c :: s') ++ z := by
    have h1 := hlen (c :: s')
    have h2 : c :: (s' ++ (z ++ r')) = ((c :: s') ++ z) ++ r' := by simp
    rw [List.cons_append] at h1
    rw [h1, h2, List.take_left']
    rfl
  rw [ht, strip_stmt hs hz, hlen, show s' ++ (z ++ r') = (s' ++ z) ++ r' from by simp, scan_skip]
  congr 1
  have hf : ∀ y : Str, (∀ c ∈ y, isSpace c = true) → ∀ c ∈ y, c ≠ 'f' := by
    rintro y hy _ hc rfl
    exact absurd (hy _ hc) (by decide)
  have h1 := scan_chars (hf z hz) ((c :: s').reverse ++ b) r'
  have h2 := scan_chars (hf trail fun c hc => (hb c hc).1) ((c :: s').reverse ++ b) (tail ls)
  rw [hx1, h1] at h2
  simpa using h2

theorem countP_none {l : Str} (h : '\n' ∉ l) : l.countP (· == '\n') = 0 := by
  rw [List.countP_eq_zero]
  rintro c hc hb
  rw [eq_of_beq hb] at hc
  exact h hc

theorem DialectStmt.noNewline {s : Str} (h : DialectStmt s) : '\n' ∉ s := by
  obtain ⟨w1, m, w2, w3, ns, rfl, b1, n1, b2, n2, b3, n3, n4, hmod, n5, hns, hlast⟩ := h
  simp only [List.mem_append, not_or]
  refine ⟨by decide, fun h => (b1 _ h).2 rfl, fun h => ?_, fun h => (b2 _ h).2 rfl, by decide,
    fun h => (b3 _ h).2 rfl, fun h => (hns _ h).1 rfl⟩
  exact absurd (moduleChar_mod (hmod _ h)) (by decide)

theorem Imports.noNewline {n : Nat} {ls : List Str} {out : List (Nat × Str)} (h : Imports n ls out) :
    ∀ l ∈ ls, '\n' ∉ l := by
  induction h with
  | nil => simp
  | ordinary hn _ _ ih =>
    intro l hl
    rcases List.mem_cons.1 hl with rfl | hl
    · exact hn
    · exact ih l hl
  | dialect hs hb _ ih =>
    intro l hl
    rcases List.mem_cons.1 hl with rfl | hl
    · rw [List.mem_append, not_or]
      exact ⟨hs.noNewline, fun h => (hb _ h).2 rfl⟩
    · exact ih l hl

theorem Guarded.tail {l : Str} {ls : List Str} (h : Guarded (l :: ls)) : Guarded ls :=
  fun pre s trail post hx => h (l :: pre) s trail post (by rw [hx]; rfl)

theorem scan_text {n : Nat} {ls : List Str} {out : List (Nat × Str)} (h : Imports n ls out) (hg : Guarded ls)
    {b : Str} (he : Edge b) (hb : lineno b = n) : scan 0 b (unlines ls) = out := by
  induction h generalizing b with
  | nil => rfl
  | @ordinary n l ls out hn ho hi ih =>
    rw [unlines_cons, scan_ordinary ho hn (tail_edge ls)]
    cases ls with
    | nil => cases hi; rfl
    | cons x xs =>
      rw [tail, scan_cons (run_char (by decide)), ih hg.tail (.inr rfl)]
      · simp only [lineno, List.countP_cons, List.countP_append] at hb ⊢
        rw [countP_none (by simpa using hn)]
        simp
        omega
      · exact fun h => by cases h
  | @dialect n s trail ls out hs ht hi ih =>
    rw [unlines_cons, List.append_assoc, scan_dialect hs ht (hg [] s trail ls rfl hs ht) hi.noNewline he, hb]
    congr 1
    cases ls with
    | nil => cases hi; rfl
    | cons x xs =>
      rw [tail, scan_cons (run_char (by decide)), ih hg.tail (.inr rfl)]
      · simp only [lineno, List.countP_cons, List.countP_append] at hb ⊢
        rw [countP_none (l := trail.reverse) (by simpa using fun h => (ht _ h).2 rfl),
          countP_none (l := s.reverse) (by simpa using hs.noNewline)]
        simp
        omega
      · exact fun h => by cases h

end Mcpyrate.Dialects
