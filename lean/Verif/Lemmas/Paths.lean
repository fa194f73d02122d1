import Verif.Spec.Paths
namespace Mcpyrate.Paths
open Py

theorem mem_insert {x y : Str} {l : List Str} : y ∈ insert x l ↔ y = x ∨ y ∈ l := by
  induction l with
  | nil => simp [insert]
  | cons z zs ih =>
    unfold insert
    split
    · simp
    · simp only [List.mem_cons, ih]
      constructor
      · rintro (h | h | h) <;> simp [h]
      · rintro (h | h | h) <;> simp [h]

theorem mem_sort {y : Str} {l : List Str} : y ∈ sort l ↔ y ∈ l := by
  induction l with
  | nil => simp [sort]
  | cons x xs ih => simp [sort, mem_insert, ih]

theorem leKey_total (a b : Str) : leKey a b = true ∨ leKey b a = true := by
  simp only [leKey, Bool.or_eq_true, Bool.and_eq_true, decide_eq_true_eq]
  rcases Nat.lt_trichotomy (a.count '/') (b.count '/') with h | h | h
  · exact .inr (.inl h)
  · rcases List.le_total a b with h2 | h2
    · exact .inl (.inr ⟨h, h2⟩)
    · exact .inr (.inr ⟨h.symm, h2⟩)
  · exact .inl (.inl h)

theorem leKey_trans {a b c : Str} (h1 : leKey a b = true) (h2 : leKey b c = true) : leKey a c = true := by
  simp only [leKey, Bool.or_eq_true, Bool.and_eq_true, decide_eq_true_eq] at *
  rcases h1 with h1 | ⟨h1, h1'⟩ <;> rcases h2 with h2 | ⟨h2, h2'⟩
  · exact .inl (by omega)
  · exact .inl (by omega)
  · exact .inl (by omega)
  · exact .inr ⟨by omega, List.le_trans h1' h2'⟩

theorem sorted_insert {x : Str} {l : List Str} (h : l.Pairwise fun a b => leKey a b = true) :
    (insert x l).Pairwise fun a b => leKey a b = true := by
  induction l with
  | nil => simp [insert]
  | cons y ys ih =>
    rw [List.pairwise_cons] at h
    unfold insert
    split
    · rename_i hxy
      rw [List.pairwise_cons, List.pairwise_cons]
      refine ⟨?_, h⟩
      intro z hz
      rcases List.mem_cons.mp hz with rfl | hz
      · exact hxy
      · exact leKey_trans hxy (h.1 z hz)
    · rename_i hxy
      rw [List.pairwise_cons]
      refine ⟨?_, ih h.2⟩
      intro z hz
      rcases mem_insert.mp hz with rfl | hz
      · rcases leKey_total y z with h' | h'
        · exact h'
        · exact absurd h' hxy
      · exact h.1 z hz

theorem sorted_sort (l : List Str) : (sort l).Pairwise fun a b => leKey a b = true := by
  induction l with
  | nil => simp [sort]
  | cons x xs ih => exact sorted_insert ih

theorem matchLoop_ok {fs : FS} {file : Str} {r : Path} : ∀ {l : List Str}, matchLoop fs file l = .ok r →
    ∃ before e after, l = before ++ e :: after ∧ fs.resolve e = r ∧ text r <+: file ∧
      ∀ b ∈ before, ¬ text (fs.resolve b) <+: file
  | [], h => by cases h
  | e :: es, h => by
    unfold matchLoop at h
    by_cases hp : (text (fs.resolve e)).isPrefixOf file = true
    · rw [if_pos hp] at h
      cases h
      exact ⟨[], e, es, rfl, rfl, List.isPrefixOf_iff_prefix.mp hp, by simp⟩
    · rw [if_neg hp] at h
      obtain ⟨b, e', a, h1, h2, h3, h4⟩ := matchLoop_ok h
      refine ⟨e :: b, e', a, by rw [h1]; rfl, h2, h3, ?_⟩
      intro x hx
      rcases List.mem_cons.mp hx with rfl | hx
      · exact fun hp' => hp (List.isPrefixOf_iff_prefix.mpr hp')
      · exact h4 x hx

theorem matchLoop_error {fs : FS} {file : Str} {x : Err} : ∀ {l : List Str},
    matchLoop fs file l = .error x ↔ x = .valueError ∧ ∀ e ∈ l, ¬ text (fs.resolve e) <+: file
  | [] => by simp [matchLoop, eq_comm]
  | e :: es => by
    unfold matchLoop
    by_cases hp : (text (fs.resolve e)).isPrefixOf file = true
    · rw [if_pos hp]
      simp [List.isPrefixOf_iff_prefix.mp hp]
    · rw [if_neg hp, matchLoop_error]
      have : ¬ text (fs.resolve e) <+: file := fun h => hp (List.isPrefixOf_iff_prefix.mpr h)
      simp [this]

theorem text_cons (c : Str) (cs : Path) : text (c :: cs) = '/' :: c ++ cs.flatMap fun c => '/' :: c := by
  simp [text]

/-- A directory above the file is a string prefix. -/
theorem under_text {d f : Path} (h : Under d f) : text d <+: text f := by
  obtain ⟨r, rfl⟩ := h
  cases d with
  | nil =>
    cases r with
    | nil => exact List.prefix_refl _
    | cons c cs => exact ⟨c ++ cs.flatMap fun c => '/' :: c, by simp [text]⟩
  | cons c cs => exact ⟨r.flatMap fun c => '/' :: c, by simp [text, List.append_assoc]⟩

theorem count_flat : ∀ {p : Path}, (∀ c ∈ p, compOk c) → (p.flatMap fun c => '/' :: c).count '/' = p.length
  | [], _ => rfl
  | c :: cs, h => by
    have h1 : c.count '/' = 0 := List.count_eq_zero.mpr (h c (by simp)).2
    have h2 := count_flat (p := cs) (fun x hx => h x (List.mem_cons_of_mem _ hx))
    simp only [List.flatMap_cons, List.count_append, List.count_cons_self, h1, h2, List.length_cons]
    omega

theorem count_text {p : Path} (h : ∀ c ∈ p, compOk c) (hp : p ≠ []) : (text p).count '/' = p.length := by
  cases p with
  | nil => exact absurd rfl hp
  | cons c cs => exact count_flat h

/-- The components joined by a separator. -/
theorem join_flat (sep : Char) : ∀ {p : Path}, p ≠ [] → (p.flatMap fun c => sep :: c) = sep :: join sep p
  | [], h => absurd rfl h
  | [c], _ => by simp [join]
  | c :: d :: cs, _ => by
    have := join_flat sep (p := d :: cs) (by simp)
    rw [List.flatMap_cons, this]
    simp [join]

/-- What `relativize` cuts out. -/
theorem drop_text {d r : Path} (hr : ∀ c ∈ r, compOk c) :
    dropSep ((text (d ++ r)).drop (text d).length) = join '/' r := by
  cases d with
  | nil =>
    cases r with
    | nil => rfl
    | cons c cs =>
      have h2 : text ([] ++ c :: cs) = '/' :: join '/' (c :: cs) := join_flat '/' (by simp)
      rw [h2]
      change dropSep (join '/' (c :: cs)) = _
      obtain ⟨h3, h4⟩ := hr c (by simp)
      cases c with
      | nil => exact absurd rfl h3
      | cons x xs =>
        have hx : x ≠ '/' := fun e => h4 (by simp [e])
        cases cs <;> (simp only [join, List.cons_append]; unfold dropSep; split)
        all_goals (first | rfl | (rename_i heq; exact absurd (List.cons.inj heq).1 hx))
  | cons c cs =>
    have h1 : text (c :: cs ++ r) = text (c :: cs) ++ r.flatMap fun c => '/' :: c := by
      simp [text, List.append_assoc]
    rw [h1, List.drop_left]
    cases r with
    | nil => rfl
    | cons d ds => rw [join_flat '/' (by simp)]; rfl

theorem dotted_join : ∀ {p : Path}, (∀ c ∈ p, compOk c) → dotted (join '/' p) = join '.' p
  | [], _ => rfl
  | c :: cs, h => by
    have hc : dotted c = c := by
      unfold dotted
      conv => rhs; rw [← List.map_id c]
      apply List.map_congr_left
      intro x hx
      rw [if_neg]
      · rfl
      · rintro rfl; exact (h c (by simp)).2 hx
    cases cs with
    | nil => simpa [join] using hc
    | cons d ds =>
      have := dotted_join (p := d :: ds) (fun x hx => h x (List.mem_cons_of_mem _ hx))
      simp only [join, dotted, List.map_append, List.map_cons] at this ⊢
      rw [this, show c.map _ = c from hc]
      rfl

theorem join_nil {sep : Char} {p : Path} (h : ∀ c ∈ p, compOk c) : join sep p = [] ↔ p = [] := by
  cases p with
  | nil => simp [join]
  | cons c cs =>
    have := (h c (by simp)).1
    cases cs <;> simp [join, this]

/-! ### An example file system -/

theorem split_comps : ∀ (acc s : Str), '/' ∉ acc → ∀ c ∈ split acc s, compOk c
  | acc, [], h, c, hc => by
    unfold split at hc
    split at hc
    · cases hc
    · rename_i hne
      simp only [List.mem_singleton] at hc
      subst hc
      exact ⟨by simpa using hne, by simpa using h⟩
  | acc, x :: xs, h, c, hc => by
    unfold split at hc
    split at hc
    · split at hc
      · exact split_comps [] xs (by simp) c hc
      · rename_i hne
        rcases List.mem_cons.mp hc with rfl | hc
        · exact ⟨by simpa using hne, by simpa using h⟩
        · exact split_comps [] xs (by simp) c hc
    · rename_i hx
      exact split_comps (x :: acc) xs (by simp [h, Ne.symm hx]) c hc

theorem split_append : ∀ (c acc s : Str), '/' ∉ c → split acc (c ++ s) = split (c.reverse ++ acc) s
  | [], acc, s, _ => by simp
  | x :: xs, acc, s, h => by
    simp only [List.mem_cons, not_or] at h
    rw [List.cons_append, split, if_neg (Ne.symm h.1), split_append xs _ s h.2]
    simp

theorem split_flat : ∀ (p : Path) (acc : Str), (∀ c ∈ p, compOk c) →
    split acc (p.flatMap fun c => '/' :: c) = if acc = [] then p else acc.reverse :: p
  | [], acc, _ => by simp [split]
  | c :: cs, acc, h => by
    have hc := h c (by simp)
    have ih := split_flat cs c.reverse (fun x hx => h x (List.mem_cons_of_mem _ hx))
    rw [if_neg (by simpa using hc.1)] at ih
    have h1 : split [] (c ++ cs.flatMap fun c => '/' :: c) = c :: cs := by
      rw [split_append c [] _ hc.2, List.append_nil, ih, List.reverse_reverse]
    simp only [List.flatMap_cons, List.cons_append]
    rw [split, if_pos rfl, h1]

theorem normalize_id : ∀ (p acc : Path), (∀ c ∈ p, c ≠ ['.', '.']) → normalize acc p = acc.reverse ++ p
  | [], acc, _ => by simp [normalize]
  | c :: cs, acc, h => by
    rw [normalize, if_neg (h c (by simp)), normalize_id cs _ (fun x hx => h x (List.mem_cons_of_mem _ hx))]
    simp

theorem normalize_mem : ∀ (p acc : Path), (∀ c ∈ acc, c ≠ ['.', '.']) → ∀ c ∈ normalize acc p,
    (c ∈ acc ∨ c ∈ p) ∧ c ≠ ['.', '.']
  | [], acc, h, c, hc => by
    simp only [normalize, List.mem_reverse] at hc
    exact ⟨.inl hc, h c hc⟩
  | d :: ds, acc, h, c, hc => by
    unfold normalize at hc
    split at hc
    · obtain ⟨h1, h2⟩ := normalize_mem ds acc.tail (fun x hx => h x (List.mem_of_mem_tail hx)) c hc
      exact ⟨h1.imp List.mem_of_mem_tail (List.mem_cons_of_mem _), h2⟩
    · rename_i hd
      obtain ⟨h1, h2⟩ := normalize_mem ds (d :: acc) (by
        intro x hx
        rcases List.mem_cons.mp hx with rfl | hx
        · exact hd
        · exact h x hx) c hc
      refine ⟨?_, h2⟩
      rcases h1 with h1 | h1
      · rcases List.mem_cons.mp h1 with rfl | h1
        · exact .inr (by simp)
        · exact .inl h1
      · exact .inr (List.mem_cons_of_mem _ h1)

/-- A file system without symbolic links; ".." means the parent; relative paths start at the root. -/
def plainFS : FS where
  resolve s := normalize [] (split [] s)
  comps s c hc := by
    obtain ⟨h1, -⟩ := normalize_mem _ [] (by simp) c hc
    rcases h1 with h1 | h1
    · cases h1
    · exact split_comps [] s (by simp) c h1
  idem s p hp := by
    have hmem : ∀ c ∈ p, compOk c ∧ c ≠ ['.', '.'] := by
      intro c hc
      obtain ⟨h1, h2⟩ := normalize_mem _ [] (by simp) c (hp.subset hc)
      rcases h1 with h1 | h1
      · cases h1
      · exact ⟨split_comps [] s (by simp) c h1, h2⟩
    cases p with
    | nil => decide
    | cons c cs =>
      change normalize [] (split [] ((c :: cs).flatMap fun c => '/' :: c)) = _
      rw [split_flat _ _ (fun x hx => (hmem x hx).1), if_pos rfl,
        normalize_id _ _ (fun x hx => (hmem x hx).2)]
      rfl

end Mcpyrate.Paths
