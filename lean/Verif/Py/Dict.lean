/-
Python dictionaries as association lists in insertion order.
-/
namespace Mcpyrate.Py

/-- A dictionary: its items in insertion order.  Keys are expected to be distinct (`Dict.WF`). -/
abbrev Dict (κ α : Type) := List (κ × α)

namespace Dict
variable {κ α : Type} [DecidableEq κ]

/-- `d.get(k)`. -/
def get (d : Dict κ α) (k : κ) : Option α := d.lookup k

/-- `d[k] = v`: overwrite in place, or append. -/
def set : Dict κ α → κ → α → Dict κ α
  | [], k, v => [(k, v)]
  | (k', v') :: d, k, v => if k' = k then (k, v) :: d else (k', v') :: set d k v

/-- `del d[k]` (no effect when the key is missing; callers check). -/
def del : Dict κ α → κ → Dict κ α
  | [], _ => []
  | (k', v') :: d, k => if k' = k then d else (k', v') :: del d k

/-- `d.update(e)`. -/
def update (d : Dict κ α) : Dict κ α → Dict κ α
  | [] => d
  | (k, v) :: e => update (set d k v) e

def keys (d : Dict κ α) : List κ := d.map Prod.fst

/-- Keys are distinct, as in every Python dictionary. -/
def WF (d : Dict κ α) : Prop := (keys d).Nodup

theorem get_nil (k : κ) : get ([] : Dict κ α) k = none := rfl

theorem get_cons (k k' : κ) (v : α) (d : Dict κ α) :
    get ((k', v) :: d) k = if k' = k then some v else get d k := by
  simp only [get, List.lookup_cons]
  by_cases h : k' = k
  · subst h; simp
  · have : (k == k') = false := by simpa using fun e => h e.symm
    simp [this, h]

theorem get_set (d : Dict κ α) (k k' : κ) (v : α) :
    get (set d k v) k' = if k = k' then some v else get d k' := by
  induction d with
  | nil => simp [set, get_cons]
  | cons p d ih =>
    obtain ⟨k2, v2⟩ := p
    simp only [set]
    by_cases h : k2 = k
    · subst h
      simp only [if_true, get_cons]
      split <;> rfl
    · simp only [if_neg h, get_cons, ih]
      by_cases h2 : k2 = k'
      · have : k ≠ k' := by rintro rfl; exact h h2
        simp [h2, this]
      · simp [h2]

theorem mem_keys (d : Dict κ α) (k : κ) : k ∈ keys d ↔ (get d k).isSome := by
  induction d with
  | nil => simp [keys, get]
  | cons p d ih =>
    obtain ⟨k2, v2⟩ := p
    simp only [keys, List.map_cons, List.mem_cons, get_cons]
    by_cases h : k2 = k
    · simp [h]
    · simp only [if_neg h, ← ih, keys]
      constructor
      · rintro (h' | h')
        · exact absurd h'.symm h
        · exact h'
      · exact Or.inr

theorem get_eq_none (d : Dict κ α) (k : κ) : get d k = none ↔ k ∉ keys d := by
  rw [mem_keys]; simp

theorem get_mem (d : Dict κ α) (k : κ) (v : α) (h : get d k = some v) : (k, v) ∈ d := by
  induction d with
  | nil => simp [get] at h
  | cons p d ih =>
    obtain ⟨k2, v2⟩ := p
    rw [get_cons] at h
    split at h
    · simp_all
    · simp [ih h]

theorem mem_get (d : Dict κ α) (hd : WF d) (k : κ) (v : α) (h : (k, v) ∈ d) : get d k = some v := by
  induction d with
  | nil => simp at h
  | cons p d ih =>
    obtain ⟨k2, v2⟩ := p
    simp only [WF, keys, List.map_cons, List.nodup_cons] at hd
    rw [get_cons]
    simp only [List.mem_cons, Prod.mk.injEq] at h
    rcases h with ⟨rfl, rfl⟩ | h
    · simp
    · have : k2 ≠ k := by
        rintro rfl
        exact hd.1 (List.mem_map_of_mem (f := Prod.fst) h)
      simp [this, ih hd.2 h]

theorem keys_set (d : Dict κ α) (k : κ) (v : α) :
    keys (set d k v) = if k ∈ keys d then keys d else keys d ++ [k] := by
  induction d with
  | nil => simp [set, keys]
  | cons p d ih =>
    obtain ⟨k2, v2⟩ := p
    simp only [set]
    by_cases h : k2 = k
    · subst h; simp [keys]
    · have h' : k ≠ k2 := fun e => h e.symm
      simp only [if_neg h, keys, List.map_cons, List.mem_cons, h', false_or]
      simp only [keys] at ih
      rw [ih]
      split <;> simp_all

theorem WF_set (d : Dict κ α) (k : κ) (v : α) (h : WF d) : WF (set d k v) := by
  unfold WF at *
  rw [keys_set]
  split
  · exact h
  · rename_i hk
    rw [List.nodup_append]
    refine ⟨h, by simp, ?_⟩
    intro a ha b hb
    simp at hb
    subst hb
    rintro rfl
    exact hk ha

theorem keys_del_sublist (d : Dict κ α) (k : κ) : (keys (del d k)).Sublist (keys d) := by
  induction d with
  | nil => simp [del, keys]
  | cons p d ih =>
    obtain ⟨k2, v2⟩ := p
    simp only [del]
    split
    · simp [keys]
    · simpa [keys] using ih

theorem WF_del (d : Dict κ α) (k : κ) (h : WF d) : WF (del d k) :=
  List.Pairwise.sublist (keys_del_sublist d k) h

theorem get_del (d : Dict κ α) (h : WF d) (k k' : κ) :
    get (del d k) k' = if k = k' then none else get d k' := by
  induction d with
  | nil => simp [del, get]
  | cons p d ih =>
    obtain ⟨k2, v2⟩ := p
    have h0 := h
    simp only [WF, keys, List.map_cons, List.nodup_cons] at h
    simp only [del]
    by_cases hk : k2 = k
    · subst hk
      simp only [if_true, get_cons]
      split
      · rename_i he
        subst he
        rw [get_eq_none]
        exact h.1
      · rfl
    · simp only [if_neg hk, get_cons, ih h.2]
      by_cases h2 : k2 = k'
      · have : k ≠ k' := by rintro rfl; exact hk h2
        simp [h2, this]
      · simp [h2]

theorem get_update (d e : Dict κ α) (he : WF e) (k : κ) :
    get (update d e) k = (get e k).or (get d k) := by
  induction e generalizing d with
  | nil => simp [update, get_nil]
  | cons p e ih =>
    obtain ⟨k2, v2⟩ := p
    simp only [WF, keys, List.map_cons, List.nodup_cons] at he
    simp only [update, ih _ he.2, get_set, get_cons]
    by_cases h : k2 = k
    · subst h
      have := (get_eq_none e k2).2 he.1
      simp [this]
    · simp [h]

theorem WF_update (d e : Dict κ α) (h : WF d) : WF (update d e) := by
  induction e generalizing d with
  | nil => exact h
  | cons p e ih => exact ih _ (WF_set _ _ _ h)

theorem set_ne_nil (d : Dict κ α) (k : κ) (v : α) : set d k v ≠ [] := by
  cases d with
  | nil => simp [set]
  | cons p d => simp only [set]; split <;> simp

theorem update_ne_nil (d e : Dict κ α) (h : d ≠ []) : update d e ≠ [] := by
  induction e generalizing d with
  | nil => exact h
  | cons p e ih => exact ih _ (set_ne_nil _ _ _)

end Dict
end Mcpyrate.Py
