import Verif.Lemmas.DumpColor
import Verif.Spec.DumpLayout
/-
Lemmas for C62: the layout.
-/
namespace Mcpyrate.Dump
open Py
open Unparse hiding Str
open PyText

theorem aligned_nil (p : Place) (o : List Nat) (n : Nat) : aligned p o n [] = [] := by cases p <;> rfl

/-- The text `t`, between string literals, at column `n`, is left as it is. -/
theorem aligned_word : ∀ {w : Str}, (∀ c ∈ w, wordChar c = true) → ∀ (o : List Nat) (n : Nat) (r : Str),
    aligned .code o n (w ++ r) = w ++ aligned .code o (n + w.length) r
  | [], _, _, _, _ => rfl
  | c :: w, h, o, n, r => by
    have hc := h c (by simp)
    have hne : ∀ x : Char, wordChar x = false → c ≠ x := by
      rintro x hx rfl; rw [hc] at hx; cases hx
    rw [List.cons_append, aligned, if_neg (hne _ (by decide)),
      if_neg (fun e => e.elim (hne _ (by decide)) (hne _ (by decide))),
      if_neg (fun e => e.elim (hne _ (by decide)) (hne _ (by decide))),
      if_neg (fun e => e.elim (hne _ (by decide)) (hne _ (by decide))),
      aligned_word (w := w) (fun d hd => h d (by simp [hd]))]
    rw [List.length_cons, List.cons_append, Nat.add_right_comm, Nat.add_assoc]

theorem aligned_eq (o : List Nat) (n : Nat) (r : Str) : aligned .code o n ('=' :: r) = '=' :: aligned .code o (n + 1) r := rfl
theorem aligned_paren (o : List Nat) (n : Nat) (r : Str) :
    aligned .code o n ('(' :: r) = '(' :: aligned .code ((n + 1) :: o) (n + 1) r := rfl
theorem aligned_bracket (o : List Nat) (n : Nat) (r : Str) :
    aligned .code o n ('[' :: r) = '[' :: aligned .code ((n + 1) :: o) (n + 1) r := rfl
theorem aligned_close {e : Char} (he : e = ')' ∨ e = ']') (i : Nat) (o : List Nat) (n : Nat) (r : Str) :
    aligned .code (i :: o) n (e :: r) = e :: aligned .code o (n + 1) r := by
  rcases he with rfl | rfl <;> rfl
theorem aligned_comma (i : Nat) (o : List Nat) (n : Nat) (r : Str) :
    aligned .code (i :: o) n (lit ", " ++ r) = lit ",\n" ++ List.replicate i ' ' ++ aligned .code (i :: o) i r := rfl
theorem aligned_quote {q : Char} (hq : q = '\'' ∨ q = '"') (o : List Nat) (n : Nat) (r : Str) :
    aligned .code o n (q :: r) = q :: aligned (.text q) o (n + 1) r := by
  rcases hq with rfl | rfl <;> rfl

/-! ### String literals -/

/-- This part of a literal is left as it is. -/
def Passes (q : Char) (e : Str) : Prop := ∀ (o : List Nat) (n : Nat) (r : Str),
  aligned (.text q) o n (e ++ r) = e ++ aligned (.text q) o (n + e.length) r

theorem Passes.nil (q : Char) : Passes q [] := fun _ _ _ => rfl

theorem Passes.append {q : Char} {e f : Str} (h : Passes q e) (h' : Passes q f) : Passes q (e ++ f) := by
  intro o n r
  rw [List.append_assoc, h, h', List.append_assoc, List.length_append, Nat.add_assoc]

theorem Passes.char {q c : Char} (h : c ≠ q) (h' : c ≠ '\\') : Passes q [c] := by
  intro o n r
  show aligned (.text q) o n (c :: r) = _
  rw [aligned, if_neg h, if_neg h']
  rfl

theorem Passes.escaped {q : Char} (hq : q ≠ '\\') (c : Char) : Passes q ['\\', c] := by
  intro o n r
  show aligned (.text q) o n ('\\' :: c :: r) = _
  rw [aligned, if_neg (fun h => hq h.symm), if_pos rfl, aligned]
  rfl

theorem hexDigit_plain (n : Nat) : hexDigit n ≠ '\'' ∧ hexDigit n ≠ '"' ∧ hexDigit n ≠ '\\' := by
  unfold hexDigit
  by_cases h : n < 16
  · have : ∀ k : Fin 16, let c := "0123456789abcdef".toList.getD k.val '0'; c ≠ '\'' ∧ c ≠ '"' ∧ c ≠ '\\' := by decide
    exact this ⟨n, h⟩
  · rw [List.getD_eq_getElem?_getD, List.getElem?_eq_none (by show 16 ≤ n; omega)]; decide

theorem Passes.hex {q : Char} (hq : q = '\'' ∨ q = '"') : ∀ k n, Passes q (Unparse.hex k n)
  | 0, _ => by rw [Unparse.hex]; exact .nil q
  | k + 1, n => by
    rw [Unparse.hex]
    refine (Passes.hex hq k _).append (.char ?_ (hexDigit_plain _).2.2)
    rcases hq with rfl | rfl
    · exact (hexDigit_plain _).1
    · exact (hexDigit_plain _).2.1

theorem Passes.quoted {q : Char} (hq : q = '\'' ∨ q = '"') (c : Char) (k n : Nat) : Passes q ('\\' :: c :: Unparse.hex k n) :=
  .append (e := ['\\', c]) (.escaped (by rcases hq with rfl | rfl <;> decide) c) (.hex hq k n)

theorem escapeChar_passes (H : Host) {q : Char} (hq : q = '\'' ∨ q = '"') (c : Char) : Passes q (escapeChar H q c) := by
  have hq' : q ≠ '\\' := by rcases hq with rfl | rfl <;> decide
  unfold escapeChar
  split
  · exact .escaped hq' c
  · rename_i h
    have hc : c ≠ q ∧ c ≠ '\\' := ⟨fun e => h (.inl e), fun e => h (.inr e)⟩
    split
    · exact .escaped hq' 't'
    split
    · exact .escaped hq' 'n'
    split
    · exact .escaped hq' 'r'
    split
    · exact .quoted hq 'x' _ _
    split
    · exact .char hc.1 hc.2
    split
    · exact .char hc.1 hc.2
    split
    · exact .quoted hq 'x' _ _
    split
    · exact .quoted hq 'u' _ _
    · exact .quoted hq 'U' _ _

theorem escapeByte_passes {q : Char} (hq : q = '\'' ∨ q = '"') (b : Nat) : Passes q (escapeByte q b) := by
  have hq' : q ≠ '\\' := by rcases hq with rfl | rfl <;> decide
  unfold escapeByte
  split
  · exact .escaped hq' _
  · rename_i h
    split
    · exact .escaped hq' 't'
    split
    · exact .escaped hq' 'n'
    split
    · exact .escaped hq' 'r'
    split
    · exact .quoted hq 'x' _ _
    · rename_i h2
      have ha := ascii_char ⟨b, by omega⟩
      dsimp only at ha
      refine .char (fun e => h (.inl ?_)) (fun e => h (.inr ?_))
      · rw [← e]; omega
      · rw [e] at ha
        have : ('\\' : Char).toNat = 92 := by decide
        omega

theorem Passes.flatMap {α : Type} {q : Char} {f : α → Str} (h : ∀ a, Passes q (f a)) : ∀ xs : List α, Passes q (xs.flatMap f)
  | [] => .nil q
  | x :: xs => by rw [List.flatMap_cons]; exact (h x).append (Passes.flatMap h xs)

/-! ### Values -/

/-- The text `t`, at column `n`, becomes `t'`, whatever surrounds it. -/
def Flows (n : Nat) (t t' : Str) : Prop := ∃ m, ∀ (o : List Nat) (r : Str),
  aligned .code o n (t ++ r) = t' ++ aligned .code o m r

theorem quoted_flows {q : Char} (hq : q = '\'' ∨ q = '"') {e : Str} (he : Passes q e) (o : List Nat) (n : Nat) (r : Str) :
    aligned .code o n (q :: (e ++ q :: r)) = q :: (e ++ q :: aligned .code o (n + e.length + 2) r) := by
  rw [aligned_quote hq, he, aligned, if_pos rfl, Nat.add_right_comm n 1]

theorem const_flows {H : Host} {c : Const} (h : RegularConst c) (n : Nat) : Flows n (reprConst H c) (reprConst H c) := by
  rcases const_cases h with hw | ⟨s, rfl⟩ | ⟨b, rfl⟩ | ⟨x, s, rfl, hs, hx⟩
  · exact ⟨_, fun o r => aligned_word (wordConst_chars (H := H) hw h).1 o n r⟩
  · obtain ⟨q, hq, e⟩ := repr_str (H := H) (s := s)
    exact ⟨_, fun o r => by rw [e, e, quoted_flows hq (.flatMap (escapeChar_passes H hq) _)]⟩
  · obtain ⟨q, hq, e⟩ := repr_bytes (H := H) (b := b)
    refine ⟨n + 1 + (b.flatMap (escapeByte q)).length + 2, fun o r => ?_⟩
    rw [e, e]
    have h1 := aligned_word (w := ['b']) (by decide) o n (q :: (b.flatMap (escapeByte q) ++ q :: r))
    exact h1.trans (congrArg ('b' :: ·) (quoted_flows hq (.flatMap (escapeByte_passes hq) _) o (n + 1) r))
  · rw [repr_complex, hx]
    have hw : ∀ c ∈ s ++ ['j'], wordChar c = true := by
      intro c hc
      rcases List.mem_append.1 hc with hc | hc
      · exact numeric_word (hs c hc)
      · rw [List.mem_singleton.1 hc]; decide
    refine ⟨n + 1 + (s ++ ['j']).length + 1, fun o r => ?_⟩
    have e : ∀ r : Str, ('(' :: s ++ ['j', ')']) ++ r = '(' :: ((s ++ ['j']) ++ ')' :: r) := fun r => by simp
    rw [e, e, aligned_paren, aligned_word hw, aligned_close (.inl rfl)]

/-- Items, with separators. -/
theorem items_flow {α : Type} {f g : α → Str} {os om : Options} (hs : os.multiline = false) (hm : om.multiline = true)
    {i k : Nat} : ∀ {xs : List α} (n : Nat), (∀ x ∈ xs, Flows i (f x) (g x)) → ∃ m, ∀ (o : List Nat) (r : Str),
      aligned .code (i :: o) n ((xs.map f).flatMap (separator os k ++ ·) ++ r) =
        (xs.map g).flatMap (separator om i ++ ·) ++ aligned .code (i :: o) m r
  | [], n, _ => ⟨n, fun _ _ => rfl⟩
  | x :: xs, n, h => by
    obtain ⟨m1, h1⟩ := h x (by simp)
    obtain ⟨m, h2⟩ := items_flow hs hm (i := i) (k := k) (xs := xs) m1 (fun y hy => h y (by simp [hy]))
    have e1 : separator os k = lit ", " := by unfold separator; rw [hs]; rfl
    have e2 : separator om i = lit ",\n" ++ List.replicate i ' ' := by unfold separator; rw [hm]; rfl
    refine ⟨m, fun o r => ?_⟩
    rw [List.map_cons, List.flatMap_cons, List.map_cons, List.flatMap_cons]
    rw [show separator os k ++ f x = lit ", " ++ f x by rw [e1], show separator om i ++ g x = lit ",\n" ++ List.replicate i ' ' ++ g x by rw [e2]]
    rw [List.append_assoc, List.append_assoc, aligned_comma, h1, h2]
    simp only [List.append_assoc]

theorem inter_flow {α : Type} {f g : α → Str} {os om : Options} (hs : os.multiline = false) (hm : om.multiline = true)
    {i k : Nat} {xs : List α} (h : ∀ x ∈ xs, Flows i (f x) (g x)) : ∃ m, ∀ (o : List Nat) (r : Str),
      aligned .code (i :: o) i ((separator os k).intercalate (xs.map f) ++ r) =
        (separator om i).intercalate (xs.map g) ++ aligned .code (i :: o) m r := by
  cases xs with
  | nil => exact ⟨i, fun _ _ => rfl⟩
  | cons x xs =>
    obtain ⟨m1, h1⟩ := h x (by simp)
    obtain ⟨m, h2⟩ := items_flow hs hm (i := i) (k := k) (xs := xs) m1 (fun y hy => h y (by simp [hy]))
    refine ⟨m, fun o r => ?_⟩
    rw [List.map_cons, List.map_cons, inter_cons, inter_cons, List.append_assoc, h1, h2, List.append_assoc]

theorem flows {H : Host} {os om : Options} (hs : os.multiline = false) (hm : om.multiline = true) (cs : os.color = none)
    (cm : om.color = none) (ha : om.attributes = os.attributes) (b : Nat) : ∀ (v : Val), sizeOf v ≤ b → Regular v →
    ∀ n k : Nat, Flows n (recurse H os k v) (recurse H om n v) := by
  induction b with
  | zero => intro v hv; cases v <;> simp at hv
  | succ b ih0 =>
  intro v hv h n k
  match v with
  | .const c =>
    rw [Regular] at h
    rw [recurse, recurse]
    exact const_flows h n
  | .list xs =>
    rw [Regular] at h
    rw [recurse_list cs (regularL h), recurse_list cm (regularL h)]
    have hx : ∀ x ∈ xs, Flows (n + 1) (recurse H os (k + 1) x) (recurse H om (n + 1) x) := fun x hx =>
      ih0 x (by have := List.sizeOf_lt_of_mem hx; simp at hv; omega) (regularL h x hx) (n + 1) (k + 1)
    obtain ⟨m, hm'⟩ := inter_flow hs hm (k := k + 1) hx
    refine ⟨m + 1, fun o r => ?_⟩
    rw [List.cons_append, List.append_assoc, aligned_bracket, hm', List.singleton_append, aligned_close (.inr rfl)]
    simp only [List.cons_append, List.append_assoc, List.nil_append]
  | .node c l fs =>
    rw [Regular] at h
    have hw := (className_word h.1).1
    have ih : ∀ f v, (f, v) ∈ fs → ∀ n k, Flows n (recurse H os k v) (recurse H om n v) := fun f v hp n k =>
      ih0 v (by have := List.sizeOf_lt_of_mem hp; simp at this hv; omega) (regularF h.2 (f, v) hp) n k
    rw [recurse_plain cs, recurse_plain cm]
    have he : entries om c l fs = entries os c l fs := by unfold entries; rw [ha]
    rw [he]
    have hx : ∀ x ∈ entries os c l fs, Flows (n + (className c).length + 1)
        (entryText H os (k + (className c).length + 1) x) (entryText H om (n + (className c).length + 1) x) := by
      intro x hx
      have key : (∀ y ∈ x.1, wordChar y = true) ∧ ∀ n k, Flows n (recurse H os k x.2) (recurse H om n x.2) := by
        unfold entries at hx
        rcases List.mem_append.1 hx with hx | hx
        · obtain ⟨p, hp, rfl⟩ := List.mem_map.1 hx
          have hf := field_word p.1
          simp only [Bool.and_eq_true, List.all_eq_true] at hf
          refine ⟨hf.1, fun n k => ?_⟩
          exact ih p.1 p.2 hp n k
        · split at hx
          · have ht : ∀ (a : Attr) n k, Flows n (recurse H os k (attrVal a)) (recurse H om n (attrVal a)) := by
              intro a n k
              cases a <;> (simp only [attrVal, Val.none]; rw [recurse, recurse]; exact const_flows (by simp [RegularConst]) n)
            simp only [attributes, List.mem_cons, List.not_mem_nil, or_false] at hx
            rcases hx with rfl | rfl | rfl | rfl
            · exact ⟨show ∀ y ∈ lit "lineno", wordChar y = true by decide, ht _⟩
            · exact ⟨show ∀ y ∈ lit "col_offset", wordChar y = true by decide, ht _⟩
            · exact ⟨show ∀ y ∈ lit "end_lineno", wordChar y = true by decide, ht _⟩
            · exact ⟨show ∀ y ∈ lit "end_col_offset", wordChar y = true by decide, ht _⟩
          · cases hx
      rw [entryText_plain cs, entryText_plain cm]
      obtain ⟨m, hm'⟩ := key.2 (n + (className c).length + 1 + x.1.length + 1) (k + (className c).length + 1 + x.1.length + 1)
      refine ⟨m, fun o r => ?_⟩
      rw [List.append_assoc, List.cons_append, aligned_word key.1, aligned_eq, hm', List.append_assoc, List.cons_append]
    obtain ⟨m, hm'⟩ := inter_flow hs hm (k := k + (className c).length + 1) hx
    refine ⟨m + 1, fun o r => ?_⟩
    rw [List.append_assoc, List.cons_append, List.append_assoc, aligned_word hw, aligned_paren, hm', List.singleton_append,
      aligned_close (.inl rfl)]
    simp only [List.cons_append, List.append_assoc, List.nil_append]

end Mcpyrate.Dump
