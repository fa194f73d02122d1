import Verif.Spec.Utils
namespace Mcpyrate

namespace Gensym
theorem search_some {pre prev us s us'} (h : search pre prev us = some (s, us')) :
    s ∉ prev ∧ ∃ u ∈ us, s = pre ++ u := by
  induction us with
  | nil => simp [search] at h
  | cons u us ih =>
    simp only [search] at h
    split at h
    · obtain ⟨h1, u', h2, h3⟩ := ih h
      exact ⟨h1, u', by simp [h2], h3⟩
    · rename_i hn
      simp only [Option.some.injEq, Prod.mk.injEq] at h
      obtain ⟨rfl, rfl⟩ := h
      exact ⟨hn, u, by simp, rfl⟩

theorem search_uuids {pre prev us s us'} (h : search pre prev us = some (s, us')) :
    ∀ u ∈ us', u ∈ us := by
  induction us with
  | nil => simp [search] at h
  | cons u us ih =>
    simp only [search] at h
    split at h
    · intro x hx; simp [ih h x hx]
    · simp only [Option.some.injEq, Prod.mk.injEq] at h
      obtain ⟨_, rfl⟩ := h
      intro x hx; simp [hx]

theorem search_isSome {pre prev us} (u) (hu : u ∈ us) (hf : pre ++ u ∉ prev) :
    (search pre prev us).isSome := by
  induction us with
  | nil => simp at hu
  | cons v us ih =>
    simp only [search]
    split
    · rename_i hv
      have : u ≠ v := by rintro rfl; exact hf hv
      exact ih (by simpa [this] using hu)
    · simp

theorem run_invariant {bs st os st'} (h : run bs st = some (os, st')) :
    (∀ s, s ∈ st'.previous ↔ s ∈ st.previous ∨ s ∈ names os) ∧
    (names os).Nodup ∧ (∀ s ∈ names os, s ∉ st.previous) := by
  induction bs generalizing st os with
  | nil =>
    simp only [run, Option.some.injEq, Prod.mk.injEq] at h
    obtain ⟨rfl, rfl⟩ := h
    simp [names]
  | cons b bs ih =>
    simp only [run] at h
    split at h
    · simp at h
    · rename_i o st1 hg
      split at h
      · simp at h
      · rename_i os1 st2 hr
        simp only [Option.some.injEq, Prod.mk.injEq] at h
        obtain ⟨rfl, rfl⟩ := h
        obtain ⟨i1, i2, i3⟩ := ih hr
        simp only [gensym] at hg
        split at hg
        · simp only [Option.some.injEq, Prod.mk.injEq] at hg
          obtain ⟨rfl, rfl⟩ := hg
          simpa [names] using ⟨i1, i2, i3⟩
        · split at hg
          · simp at hg
          · rename_i sym us hs
            simp only [Option.some.injEq, Prod.mk.injEq] at hg
            obtain ⟨rfl, rfl⟩ := hg
            have hsf := (search_some hs).1
            simp only [names, List.mem_cons, List.nodup_cons] at *
            refine ⟨?_, ⟨?_, i2⟩, ?_⟩
            · intro s; rw [i1]; grind
            · intro hm; exact (i3 _ hm) (Or.inl rfl)
            · intro s hs'
              rcases hs' with rfl | hs'
              · exact hsf
              · intro hp; exact i3 _ hs' (Or.inr hp)
end Gensym

namespace Scrub
theorem splitLast_some {s a b} (h : splitLast s = some (a, b)) : s = a ++ '_' :: b ∧ '_' ∉ b := by
  induction s generalizing a with
  | nil => simp [splitLast] at h
  | cons c cs ih =>
    simp only [splitLast] at h
    split at h
    · rename_i a' b' he
      simp only [Option.some.injEq, Prod.mk.injEq] at h
      obtain ⟨rfl, rfl⟩ := h
      have := ih he
      exact ⟨by rw [this.1]; simp, this.2⟩
    · rename_i he
      split at h
      · simp only [Option.some.injEq, Prod.mk.injEq] at h
        obtain ⟨rfl, rfl⟩ := h
        subst_vars
        refine ⟨rfl, ?_⟩
        clear ih
        induction cs with
        | nil => simp
        | cons d ds ih2 =>
          simp only [splitLast] at he
          split at he
          · simp at he
          · rename_i he2
            split at he
            · simp at he
            · rename_i hd
              simp only [List.mem_cons, not_or]
              exact ⟨fun h => hd h.symm, ih2 he2⟩
      · simp at h

theorem splitLast_none {s} : splitLast s = none ↔ '_' ∉ s := by
  induction s with
  | nil => simp [splitLast]
  | cons c cs ih =>
    simp only [splitLast]
    split
    · rename_i a b he
      have := (splitLast_some he).1
      subst this
      simp
    · rename_i he
      have := ih.1 he
      split
      · subst_vars; simp
      · rename_i hc
        simp [this]
        exact fun h => hc h.symm

theorem splitLast_append {a b} (hb : '_' ∉ b) : splitLast (a ++ '_' :: b) = some (a, b) := by
  induction a with
  | nil => simp [splitLast, splitLast_none.2 hb]
  | cons c cs ih => simp [splitLast, ih]

theorem int_of_hex (T : Tables) {u : List Char} (hne : u ≠ [])
    (hu : ∀ c ∈ u, c ∈ "0123456789abcdefABCDEF".toList) : intBase16Ok T u = true := by
  have hhex : ∀ c ∈ u, T.isHex c = true := fun c hc => T.hex_ascii c (hu c hc)
  have hsp : ∀ c ∈ u, T.isSpace c = false := fun c hc => T.space_not_hex c (hhex c hc)
  have h1 : u.dropWhile T.isSpace = u := by
    cases u with
    | nil => rfl
    | cons c cs => simp [List.dropWhile, hsp c (by simp)]
  have h2 : stripRight T u = u := by
    unfold stripRight
    have : ∀ l : List Char, (∀ c ∈ l, T.isSpace c = false) → l.dropWhile T.isSpace = l := by
      intro l hl
      cases l with
      | nil => rfl
      | cons c cs => simp [List.dropWhile, hl c (by simp)]
    rw [this _ (by simpa using hsp)]
    simp
  have h3 : dropSign u = u := by
    cases u with
    | nil => rfl
    | cons c cs =>
      have hc := hu c (by simp)
      unfold dropSign
      split
      · rename_i heq; cases heq; exact absurd hc (by decide)
      · rename_i heq; cases heq; exact absurd hc (by decide)
      · rfl
  have h4 : dropPrefix u = u := by
    unfold dropPrefix
    split
    · exact absurd (hu 'x' (by simp)) (by decide)
    · exact absurd (hu 'X' (by simp)) (by decide)
    · rfl
  unfold intBase16Ok
  simp only [h1, h2, h3, h4]
  simp [hne, List.all_eq_true]
  exact hhex
end Scrub

namespace Flatten
theorem flatten_append {α} (xs ys : List (Item α)) : flatten (xs ++ ys) = flatten xs ++ flatten ys := by
  induction xs with
  | nil => simp [flatten]
  | cons x xs ih => simp [flatten, ih]

theorem leavesOf_append {α} (a b : List (Tok α)) : leavesOf (a ++ b) = leavesOf a ++ leavesOf b := by
  simp [leavesOf]

mutual
theorem flatten_leaves {α} (xs : List (Item α)) :
    flatten xs = (leavesOf (tokensL xs)).map .leaf := by
  match xs with
  | [] => simp [flatten, tokensL, leavesOf]
  | x :: xs =>
    simp only [flatten, tokensL, leavesOf_append, List.map_append]
    rw [flattenElt_leaves x, flatten_leaves xs]
theorem flattenElt_leaves {α} (x : Item α) :
    flattenElt x = (leavesOf (tokens x)).map .leaf := by
  match x with
  | .leaf a => simp [flattenElt, tokens, leavesOf]
  | .none => simp [flattenElt, tokens, leavesOf]
  | .list xs =>
    have h : leavesOf (tokens (.list xs)) = leavesOf (tokensL xs) := by
      simp [tokens, leavesOf]
    rw [h, flattenElt, flatten_leaves xs]
end

theorem flatten_map_leaf {α} (l : List α) : flatten (l.map .leaf) = l.map .leaf := by
  induction l with
  | nil => simp [flatten]
  | cons a l ih => simp [flatten, flattenElt, ih]
end Flatten

namespace Tracker
theorem exec_eval (p : Prog) (v : Int) (st : List Int) :
    exec p (v :: st) = some ⟨v :: st, (eval p v).1, (eval p v).2⟩ := by
  induction p generalizing v st with
  | skip => simp [exec, eval]
  | read => simp [exec, eval, value]
  | raise e => simp [exec, eval]
  | seq p q ihp ihq =>
    simp only [exec, eval, ihp]
    cases h : eval p v with
    | mk l e => cases e <;> simp [ihq]
  | tryExcept p q ihp ihq =>
    simp only [exec, eval, ihp]
    cases h : eval p v with
    | mk l e => cases e <;> simp [ihq]
  | setTo a body ih =>
    cases a with
    | other => simp [exec, eval, withSetTo, check]
    | int n =>
      by_cases hn : 0 ≤ n
      · have : ¬ n < 0 := by omega
        simp [exec, eval, withSetTo, check, hn, this, ih]
      · have : n < 0 := by omega
        simp [exec, eval, withSetTo, check, hn, this]
  | changedBy a body ih =>
    cases a with
    | other => simp [exec, eval, value]
    | int n =>
      by_cases hn : 0 ≤ v + n
      · have : ¬ v + n < 0 := by omega
        simp [exec, eval, value, withSetTo, check, hn, this, ih]
      · have : v + n < 0 := by omega
        simp [exec, eval, value, withSetTo, check, hn, this]

theorem eval_nonneg (p : Prog) (v : Int) (hv : 0 ≤ v) : ∀ n ∈ (eval p v).1, 0 ≤ n := by
  induction p generalizing v with
  | skip => simp [eval]
  | read => simp [eval, hv]
  | raise e => simp [eval]
  | seq p q ihp ihq =>
    have hp := ihp v hv
    have hq := ihq v hv
    simp only [eval]
    cases h : eval p v with
    | mk l e =>
      rw [h] at hp
      cases e with
      | some e => simpa using hp
      | none =>
        simp only [List.mem_append]
        rintro n (h | h)
        · exact hp n h
        · exact hq n h
  | tryExcept p q ihp ihq =>
    have hp := ihp v hv
    have hq := ihq v hv
    simp only [eval]
    cases h : eval p v with
    | mk l e =>
      rw [h] at hp
      cases e with
      | none => simpa using hp
      | some e =>
        simp only [List.mem_append]
        rintro n (h | h)
        · exact hp n h
        · exact hq n h
  | setTo a body ih =>
    cases a with
    | other => simp [eval]
    | int n =>
      simp only [eval]
      split
      · exact ih n (by assumption)
      · simp
  | changedBy a body ih =>
    cases a with
    | other => simp [eval]
    | int n =>
      simp only [eval]
      split
      · exact ih _ (by assumption)
      · simp
end Tracker
end Mcpyrate
