import Verif.Model.Dump
import Verif.Spec.Dump
import Verif.Lemmas.PyTokens
import Verif.Lemmas.Fields
/-
Lemmas for C62.
-/
namespace Mcpyrate.Dump
open Py
open Unparse hiding Str
open PyText

/-! ### Words -/

def wordChar (c : Char) : Bool := !special c

/-- What may follow a value in a dump. -/
def Stop (r : Str) : Prop := r = [] ∨ ∃ r', r = ',' :: r' ∨ r = ')' :: r' ∨ r = ']' :: r'

theorem Stop.stops {r : Str} (h : Stop r) : Stops wordChar r := by
  rintro c r' rfl
  rcases h with h | ⟨_, h | h | h⟩ <;> cases h <;> rfl

/-- What kind of value a text begins with. -/
def sig (t : Str) : Nat :=
  match takeRun wordChar t with
  | ([], '\'' :: _) => 1
  | ([], '"' :: _) => 1
  | ([], '(' :: _) => 2
  | ([], '[' :: _) => 3
  | (_ :: _, '\'' :: _) => 4
  | (_ :: _, '"' :: _) => 4
  | (_ :: _, '(' :: _) => 5
  | (_ :: _, _) => 6
  | _ => 0

theorem sig_word {w r : Str} (hw : ∀ c ∈ w, wordChar c = true) (hn : w ≠ []) (hr : Stop r) : sig (w ++ r) = 6 := by
  unfold sig
  rw [takeRun_of hw hr.stops]
  cases w with
  | nil => exact absurd rfl hn
  | cons c w => rcases hr with rfl | ⟨_, rfl | rfl | rfl⟩ <;> rfl

theorem word_eq {w w' r r' : Str} (hw : ∀ c ∈ w, wordChar c = true) (hw' : ∀ c ∈ w', wordChar c = true)
    (hr : Stops wordChar r) (hr' : Stops wordChar r') (h : w ++ r = w' ++ r') : w = w' ∧ r = r' := by
  have := takeRun_of hw hr
  rw [h, takeRun_of hw' hr'] at this
  cases this
  exact ⟨rfl, rfl⟩

/-! ### Constants -/

theorem numeric_word {c : Char} (h : numeric c = true) : wordChar c = true := by
  unfold numeric at h
  unfold wordChar special
  have key : ∀ n : Fin 128, (let c := Char.ofNat n.val
      ((48 ≤ c.toNat && c.toNat ≤ 57) || c ∈ ['.', 'e', '+', '-', 'i', 'n', 'f', 'a']) = true →
      (!(c.toNat ≤ 32 || c ∈ [',', '(', ')', '[', ']', '=', '\'', '"'] ||
    [0x85, 0xa0, 0x1680, 0x2028, 0x2029, 0x202f, 0x205f, 0x3000].contains c.toNat ||
    (0x2000 ≤ c.toNat && c.toNat ≤ 0x200a))) = true) := by decide +kernel
  have hc : c.toNat < 128 := by
    simp only [Bool.or_eq_true, Bool.and_eq_true, decide_eq_true_eq, List.mem_cons, List.not_mem_nil, or_false] at h
    rcases h with h | h
    · omega
    · rcases h with rfl | rfl | rfl | rfl | rfl | rfl | rfl | rfl <;> decide
  have := key ⟨c.toNat, hc⟩
  simp only [Char.ofNat_toNat] at this
  exact this h

theorem digit_numeric {c : Char} (h : isDigit c = true) : numeric c = true := by
  unfold isDigit at h; unfold numeric; simp only [h, Bool.true_or]

/-- The characters of an `int`. -/
theorem reprInt_chars (n : Int) : (∀ c ∈ reprInt n, isDigit c = true ∨ c = '-') ∧ reprInt n ≠ [] := by
  cases n with
  | ofNat n =>
    obtain ⟨h, -⟩ := decimal_ok n
    exact ⟨fun c hc => .inl (h.2 c hc), h.1⟩
  | negSucc n =>
    obtain ⟨h, -⟩ := decimal_ok (n + 1)
    refine ⟨fun c hc => ?_, by simp [reprInt]⟩
    rcases List.mem_cons.1 hc with rfl | hc
    · exact .inr rfl
    · exact .inl (h.2 c hc)

theorem decimal_inj {n m : Nat} (h : decimal n = decimal m) : n = m := by
  have h1 := (decimal_ok n).2.1
  rw [h, (decimal_ok m).2.1] at h1
  exact h1.symm

theorem reprInt_inj {n m : Int} (h : reprInt n = reprInt m) : n = m := by
  have nd : ∀ k x, decimal k ≠ '-' :: x := by
    intro k x e
    have := (decimal_ok k).1.2 '-' (by rw [e]; simp)
    revert this; decide
  cases n with
  | ofNat n =>
    cases m with
    | ofNat m => rw [decimal_inj h]
    | negSucc m => exact absurd h (nd _ _)
  | negSucc n =>
    cases m with
    | ofNat m => exact absurd h.symm (nd _ _)
    | negSucc m =>
      have := decimal_inj (List.cons.inj h).2
      have : n = m := by omega
      rw [this]

/-- The constants that are shown as one word. -/
inductive WordConst : Const → Prop
  | none : WordConst .none
  | bool {b} : WordConst (.bool b)
  | int {n} : WordConst (.int n)
  | float {r} : WordConst (.float r)
  | complex {r : String} {s : Str} (hs : ∀ c ∈ s, numeric c = true) (h : r.toList = s ++ ['j']) : WordConst (.complex r)
  | ellipsis : WordConst .ellipsis

theorem repr_none {H : Host} : reprConst H .none = lit "None" := rfl
theorem repr_true {H : Host} : reprConst H (.bool true) = lit "True" := rfl
theorem repr_false {H : Host} : reprConst H (.bool false) = lit "False" := rfl
theorem repr_int {H : Host} {n : Int} : reprConst H (.int n) = reprInt n := rfl
theorem repr_float {H : Host} {r : String} : reprConst H (.float r) = r.toList := rfl
theorem repr_complex {H : Host} {r : String} : reprConst H (.complex r) = r.toList := rfl
theorem repr_ellipsis {H : Host} : reprConst H .ellipsis = lit "Ellipsis" := rfl

theorem wordConst_chars {H : Host} {c : Const} (hw : WordConst c) (hc : RegularConst c) :
    (∀ x ∈ reprConst H c, wordChar x = true) ∧ reprConst H c ≠ [] := by
  cases hw with
  | none => rw [repr_none]; exact ⟨by decide, by decide⟩
  | @bool b => cases b <;> first | (rw [repr_true]; exact ⟨by decide, by decide⟩) | (rw [repr_false]; exact ⟨by decide, by decide⟩)
  | @int n =>
    rw [repr_int]
    refine ⟨fun x hx => ?_, (reprInt_chars n).2⟩
    rcases (reprInt_chars n).1 x hx with h | rfl
    · exact numeric_word (digit_numeric h)
    · decide
  | float =>
    obtain ⟨h1, x, hx, -⟩ := hc
    rw [repr_float]
    exact ⟨fun y hy => numeric_word (h1 y hy), fun e => by rw [e] at hx; cases hx⟩
  | complex hs h =>
    rw [repr_complex, h]
    refine ⟨fun x hx => ?_, by simp⟩
    rcases List.mem_append.1 hx with hx | hx
    · exact numeric_word (hs x hx)
    · rw [List.mem_singleton.1 hx]; decide
  | ellipsis => rw [repr_ellipsis]; exact ⟨by decide, by decide⟩

/-- A number that tells the constants shown as words apart: by the characters in them. -/
def wordClass (s : Str) : Nat :=
  if 'j' ∈ s then 1
  else if 'N' ∈ s then 2
  else if 'T' ∈ s then 3
  else if 'F' ∈ s then 4
  else if 'E' ∈ s then 5
  else if '.' ∈ s ∨ 'e' ∈ s ∨ 'n' ∈ s then 6
  else 7

theorem not_mem_of {p : Char → Bool} {s : Str} {x : Char} (h : ∀ c ∈ s, p c = true) (hx : p x = false) : x ∉ s := by
  intro hm
  rw [h x hm] at hx; cases hx

theorem class_float {s : Str} (h1 : ∀ c ∈ s, numeric c = true) (h2 : ∃ c ∈ s, c ∈ ['.', 'e', 'n']) : wordClass s = 6 := by
  unfold wordClass
  rw [if_neg (not_mem_of h1 (by decide)), if_neg (not_mem_of h1 (by decide)), if_neg (not_mem_of h1 (by decide)),
    if_neg (not_mem_of h1 (by decide)), if_neg (not_mem_of h1 (by decide)), if_pos]
  obtain ⟨c, hc, h⟩ := h2
  simp only [List.mem_cons, List.not_mem_nil, or_false] at h
  rcases h with rfl | rfl | rfl
  · exact .inl hc
  · exact .inr (.inl hc)
  · exact .inr (.inr hc)

theorem class_int (n : Int) : wordClass (reprInt n) = 7 := by
  have h1 : ∀ c ∈ reprInt n, (isDigit c || c == '-') = true := fun c hc => by
    rcases (reprInt_chars n).1 c hc with h | h <;> simp [h]
  unfold wordClass
  rw [if_neg (not_mem_of h1 (by decide)), if_neg (not_mem_of h1 (by decide)), if_neg (not_mem_of h1 (by decide)),
    if_neg (not_mem_of h1 (by decide)), if_neg (not_mem_of h1 (by decide)), if_neg]
  rintro (h | h | h)
  · exact not_mem_of h1 (by decide) h
  · exact not_mem_of h1 (by decide) h
  · exact not_mem_of h1 (by decide) h

theorem wordConst_inj {H : Host} {c d : Const} (hc : WordConst c) (hd : WordConst d) (rc : RegularConst c)
    (rd : RegularConst d) (h : reprConst H c = reprConst H d) : c = d := by
  have cls : ∀ {c}, WordConst c → RegularConst c → wordClass (reprConst H c) = match c with
      | .none => 2 | .bool true => 3 | .bool false => 4 | .int _ => 7 | .float _ => 6 | .complex _ => 1 | _ => 5 := by
    intro c hc rc
    cases hc with
    | none => show wordClass (lit "None") = 2; decide
    | @bool b => cases b
                 · show wordClass (lit "False") = 4; decide
                 · show wordClass (lit "True") = 3; decide
    | int => rw [repr_int]; exact class_int _
    | float => rw [repr_float]; exact class_float rc.1 rc.2
    | complex hs h => rw [repr_complex, h]; simp [wordClass]
    | ellipsis => show wordClass (lit "Ellipsis") = 5; decide
  have e := cls hc rc
  rw [h, cls hd rd] at e
  cases hc with
  | none => cases hd with
    | none => rfl
    | @bool b => cases b <;> cases e
    | _ => cases e
  | @bool b => cases hd with
    | @bool b' => cases b <;> cases b' <;> first | rfl | cases e
    | _ => cases b <;> cases e
  | int => cases hd with
    | int => rw [reprInt_inj h]
    | @bool b => cases b <;> cases e
    | _ => cases e
  | float => cases hd with
    | float => rw [String.toList_injective h]
    | @bool b => cases b <;> cases e
    | _ => cases e
  | complex => cases hd with
    | complex => rw [String.toList_injective h]
    | @bool b => cases b <;> cases e
    | _ => cases e
  | ellipsis => cases hd with
    | ellipsis => rfl
    | @bool b => cases b <;> cases e
    | _ => cases e

theorem const_cases {c : Const} (h : RegularConst c) : WordConst c ∨ (∃ s, c = .str s) ∨ (∃ b, c = .bytes b) ∨
    ∃ (r : String) (s : Str), c = .complex r ∧ (∀ x ∈ s, numeric x = true) ∧ r.toList = '(' :: s ++ ['j', ')'] := by
  cases c with
  | none => exact .inl .none
  | bool => exact .inl .bool
  | int => exact .inl .int
  | str s => exact .inr (.inl ⟨s, rfl⟩)
  | bytes b => exact .inr (.inr (.inl ⟨b, rfl⟩))
  | float => exact .inl .float
  | complex r =>
    obtain ⟨s, hs, h | h⟩ := h
    · exact .inl (.complex hs h)
    · exact .inr (.inr (.inr ⟨r, s, rfl, hs, h⟩))
  | ellipsis => exact .inl .ellipsis

theorem repr_str {H : Host} {s : String} : ∃ q, (q = '\'' ∨ q = '"') ∧ ∀ r, reprConst H (.str s) ++ r =
    q :: (s.toList.flatMap (escapeChar H q) ++ q :: r) :=
  ⟨quoteFor (s.toList.contains '\'') (s.toList.contains '"'), quoteFor_cases _ _, fun r => by
    show (_ :: s.toList.flatMap _ ++ [_]) ++ r = _
    rw [List.cons_append, List.cons_append, List.append_assoc]; rfl⟩

theorem repr_bytes {H : Host} {b : List Nat} : ∃ q, (q = '\'' ∨ q = '"') ∧ ∀ r, reprConst H (.bytes b) ++ r =
    'b' :: q :: (b.flatMap (escapeByte q) ++ q :: r) :=
  ⟨quoteFor (b.contains 39) (b.contains 34), quoteFor_cases _ _, fun r => by
    show ('b' :: _ :: b.flatMap _ ++ [_]) ++ r = _
    rw [List.cons_append, List.cons_append, List.cons_append, List.cons_append, List.append_assoc]; rfl⟩

theorem sig_str {q : Char} (hq : q = '\'' ∨ q = '"') (r : Str) : sig (q :: r) = 1 := by
  rcases hq with rfl | rfl <;> rfl

theorem sig_bytes {q : Char} (hq : q = '\'' ∨ q = '"') (r : Str) : sig ('b' :: q :: r) = 4 := by
  rcases hq with rfl | rfl <;> rfl

theorem sig_paren (r : Str) : sig ('(' :: r) = 2 := rfl
theorem sig_list (r : Str) : sig ('[' :: r) = 3 := rfl

theorem stops_paren (r : Str) : Stops wordChar ('(' :: r) := by
  rintro c r' h; cases h; rfl
theorem stops_close (r : Str) : Stops wordChar (')' :: r) := by
  rintro c r' h; cases h; rfl
theorem stops_eq (r : Str) : Stops wordChar ('=' :: r) := by
  rintro c r' h; cases h; rfl

theorem sig_node {w : Str} (hw : ∀ c ∈ w, wordChar c = true) (hn : w ≠ []) (r : Str) : sig (w ++ '(' :: r) = 5 := by
  unfold sig
  rw [takeRun_of hw (stops_paren r)]
  cases w with
  | nil => exact absurd rfl hn
  | cons c w => rfl

/-- The kind of a constant. -/
theorem sig_const {H : Host} {c : Const} (h : RegularConst c) {r : Str} (hr : Stop r) :
    (sig (reprConst H c ++ r) = 6 ∧ WordConst c) ∨ (sig (reprConst H c ++ r) = 1 ∧ ∃ s, c = .str s) ∨
    (sig (reprConst H c ++ r) = 4 ∧ ∃ b, c = .bytes b) ∨ (sig (reprConst H c ++ r) = 2 ∧
      ∃ (x : String) (s : Str), c = .complex x ∧ (∀ x ∈ s, numeric x = true) ∧ x.toList = '(' :: s ++ ['j', ')']) := by
  rcases const_cases h with hw | ⟨s, rfl⟩ | ⟨b, rfl⟩ | ⟨x, s, rfl, hs, hx⟩
  · obtain ⟨h1, h2⟩ := wordConst_chars (H := H) hw h
    exact .inl ⟨sig_word h1 h2 hr, hw⟩
  · obtain ⟨q, hq, e⟩ := repr_str (H := H) (s := s)
    exact .inr (.inl ⟨by rw [e]; exact sig_str hq _, s, rfl⟩)
  · obtain ⟨q, hq, e⟩ := repr_bytes (H := H) (b := b)
    exact .inr (.inr (.inl ⟨by rw [e]; exact sig_bytes hq _, b, rfl⟩))
  · exact .inr (.inr (.inr ⟨by rw [repr_complex, hx]; exact sig_paren _, x, s, rfl, hs, hx⟩))

theorem str_inj {H : Host} {s s' : String} {r r' : Str}
    (h : reprConst H (.str s) ++ r = reprConst H (.str s') ++ r') : s = s' ∧ r = r' := by
  obtain ⟨q, hq, e⟩ := repr_str (H := H) (s := s)
  obtain ⟨q', hq', e'⟩ := repr_str (H := H) (s := s')
  rw [e, e'] at h
  obtain ⟨rfl, h⟩ := List.cons.inj h
  have h1 := strBody_str (H := H) hq (rest := r) s.toList (s.toList.length + s'.toList.length + 1) (by omega)
  have h2 := strBody_str (H := H) hq (rest := r') s'.toList (s.toList.length + s'.toList.length + 1) (by omega)
  rw [h, h2] at h1
  have h3 := Option.some.inj h1
  have h4 := congrArg Prod.fst h3
  have h5 := congrArg Prod.snd h3
  refine ⟨?_, h5.symm⟩
  have h6 := chars_map s.toList
  have h4' : s'.toList.map Char.toNat = s.toList.map Char.toNat := h4
  rw [← h4', chars_map] at h6
  exact String.toList_injective (Option.some.inj h6).symm

theorem bytes_inj {H : Host} {b b' : List Nat} {r r' : Str} (hb : ∀ x ∈ b, x < 256) (hb' : ∀ x ∈ b', x < 256)
    (h : reprConst H (.bytes b) ++ r = reprConst H (.bytes b') ++ r') : b = b' ∧ r = r' := by
  obtain ⟨q, hq, e⟩ := repr_bytes (H := H) (b := b)
  obtain ⟨q', hq', e'⟩ := repr_bytes (H := H) (b := b')
  rw [e, e'] at h
  obtain ⟨rfl, h⟩ := List.cons.inj (List.cons.inj h).2
  have h1 := strBody_bytes hq (rest := r) b (b.length + b'.length + 1) hb (by omega)
  have h2 := strBody_bytes hq (rest := r') b' (b.length + b'.length + 1) hb' (by omega)
  rw [h, h2] at h1
  have h3 := Option.some.inj h1
  exact ⟨(congrArg Prod.fst h3).symm, (congrArg Prod.snd h3).symm⟩

theorem paren_inj {s s' r r' : Str} (hs : ∀ x ∈ s, numeric x = true) (hs' : ∀ x ∈ s', numeric x = true)
    (h : ('(' :: s ++ ['j', ')']) ++ r = ('(' :: s' ++ ['j', ')']) ++ r') : s = s' ∧ r = r' := by
  have j : ∀ {s : Str}, (∀ x ∈ s, numeric x = true) → ∀ x ∈ s ++ ['j'], wordChar x = true := by
    intro s hs x hx
    rcases List.mem_append.1 hx with hx | hx
    · exact numeric_word (hs x hx)
    · rw [List.mem_singleton.1 hx]; decide
  have h1 : (s ++ ['j']) ++ ')' :: r = (s' ++ ['j']) ++ ')' :: r' := by
    simpa using h
  obtain ⟨e1, e2⟩ := word_eq (j hs) (j hs') (stops_close r) (stops_close r') h1
  exact ⟨List.append_cancel_right e1, (List.cons.inj e2).2⟩

/-- Constants are told apart. -/
theorem const_inj {H : Host} {c d : Const} (hc : RegularConst c) (hd : RegularConst d) {r r' : Str} (hr : Stop r)
    (hr' : Stop r') (h : reprConst H c ++ r = reprConst H d ++ r') : c = d ∧ r = r' := by
  have e1 := sig_const (H := H) hc hr
  have e2 := sig_const (H := H) hd hr'
  rw [h] at e1
  rcases e1 with ⟨a, hw⟩ | ⟨a, s, rfl⟩ | ⟨a, b, rfl⟩ | ⟨a, x, s, rfl, hs, hx⟩ <;>
    rcases e2 with ⟨a', hw'⟩ | ⟨a', s', rfl⟩ | ⟨a', b', rfl⟩ | ⟨a', x', s', rfl, hs', hx'⟩ <;>
    first
      | (rw [a] at a'; exact absurd a' (by decide))
      | skip
  · obtain ⟨h1, -⟩ := wordConst_chars (H := H) hw hc
    obtain ⟨h2, -⟩ := wordConst_chars (H := H) hw' hd
    obtain ⟨h3, h4⟩ := word_eq h1 h2 hr.stops hr'.stops h
    exact ⟨wordConst_inj hw hw' hc hd h3, h4⟩
  · obtain ⟨rfl, h1⟩ := str_inj h
    exact ⟨rfl, h1⟩
  · obtain ⟨rfl, h1⟩ := bytes_inj hc hd h
    exact ⟨rfl, h1⟩
  · rw [repr_complex, repr_complex, hx, hx'] at h
    obtain ⟨rfl, h1⟩ := paren_inj hs hs' h
    exact ⟨by rw [String.toList_injective (hx.trans hx'.symm)], h1⟩

/-! ### Sequences -/

theorem inter_cons (sep x : Str) (xs : List Str) : sep.intercalate (x :: xs) = x ++ xs.flatMap (sep ++ ·) := by
  induction xs generalizing x with
  | nil => simp [List.intercalate]
  | cons y ys ih =>
    have : sep.intercalate (x :: y :: ys) = x ++ (sep ++ sep.intercalate (y :: ys)) := by
      simp [List.intercalate]
    rw [this, ih]
    simp [List.flatMap_cons]

theorem separator_stop (o : Options) (n : Nat) (r : Str) : ∃ s, separator o n ++ r = ',' :: s := by
  unfold separator
  split
  · exact ⟨_, rfl⟩
  · exact ⟨_, rfl⟩

theorem closing_stop {e : Char} (he : e = ')' ∨ e = ']') (r : Str) : Stop (e :: r) := by
  rcases he with rfl | rfl
  · exact .inr ⟨r, .inr (.inl rfl)⟩
  · exact .inr ⟨r, .inr (.inr rfl)⟩

/-- Two sequences of texts with separators and a closing character are equal only if the items are. -/
theorem seq_inj {α β : Type} {txt : α → Str} {f : α → β} {o : Options} {n : Nat} {e : Char} (he : e = ')' ∨ e = ']')
    {r r' : Str} : ∀ {xs ys : List α},
    (∀ x ∈ xs, ∀ y ∈ ys, ∀ s s', Stop s → Stop s' → txt x ++ s = txt y ++ s' → f x = f y ∧ s = s') →
    (xs.map txt).flatMap (separator o n ++ ·) ++ e :: r = (ys.map txt).flatMap (separator o n ++ ·) ++ e :: r' →
    xs.map f = ys.map f ∧ r = r'
  | [], [], _, h => ⟨rfl, (List.cons.inj h).2⟩
  | [], y :: ys, _, h => by
    rw [List.map_cons, List.flatMap_cons, List.append_assoc, List.append_assoc] at h
    obtain ⟨s, hs⟩ := separator_stop o n (txt y ++ ((ys.map txt).flatMap (separator o n ++ ·) ++ e :: r'))
    rw [hs] at h
    rcases he with rfl | rfl <;> cases h
  | x :: xs, [], _, h => by
    rw [List.map_cons, List.flatMap_cons, List.append_assoc, List.append_assoc] at h
    obtain ⟨s, hs⟩ := separator_stop o n (txt x ++ ((xs.map txt).flatMap (separator o n ++ ·) ++ e :: r))
    rw [hs] at h
    rcases he with rfl | rfl <;> cases h
  | x :: xs, y :: ys, hi, h => by
    rw [List.map_cons, List.flatMap_cons, List.append_assoc, List.append_assoc, List.map_cons, List.flatMap_cons,
      List.append_assoc, List.append_assoc] at h
    have h := List.append_cancel_left h
    have st : ∀ (zs : List α) (q : Str), Stop ((zs.map txt).flatMap (separator o n ++ ·) ++ e :: q) := by
      intro zs q
      cases zs with
      | nil => exact closing_stop he q
      | cons z zs =>
        rw [List.map_cons, List.flatMap_cons, List.append_assoc, List.append_assoc]
        obtain ⟨s, hs⟩ := separator_stop o n (txt z ++ ((zs.map txt).flatMap (separator o n ++ ·) ++ e :: q))
        rw [hs]
        exact .inr ⟨s, .inl rfl⟩
    obtain ⟨h1, h2⟩ := hi x (by simp) y (by simp) _ _ (st xs r) (st ys r') h
    obtain ⟨h3, h4⟩ := seq_inj he (fun a ha b hb => hi a (by simp [ha]) b (by simp [hb])) h2
    exact ⟨by rw [List.map_cons, List.map_cons, h1, h3], h4⟩

/-- The same, without a separator in front. -/
theorem inter_inj {α β : Type} {txt : α → Str} {f : α → β} {o : Options} {n : Nat} {e : Char} (he : e = ')' ∨ e = ']')
    {r r' : Str} {xs ys : List α} (hx : ∀ x ∈ xs, ∀ s s', txt x ++ s ≠ e :: s') (hy : ∀ x ∈ ys, ∀ s s', txt x ++ s ≠ e :: s')
    (hi : ∀ x ∈ xs, ∀ y ∈ ys, ∀ s s', Stop s → Stop s' → txt x ++ s = txt y ++ s' → f x = f y ∧ s = s')
    (h : (separator o n).intercalate (xs.map txt) ++ e :: r = (separator o n).intercalate (ys.map txt) ++ e :: r') :
    xs.map f = ys.map f ∧ r = r' := by
  cases xs with
  | nil =>
    cases ys with
    | nil => exact ⟨rfl, (List.cons.inj h).2⟩
    | cons y ys =>
      rw [List.map_cons, inter_cons, List.append_assoc] at h
      exact absurd h.symm (hy y (by simp) _ _)
  | cons x xs =>
    cases ys with
    | nil =>
      rw [List.map_cons, inter_cons, List.append_assoc] at h
      exact absurd h (hx x (by simp) _ _)
    | cons y ys =>
      refine seq_inj (o := o) (n := n) he (xs := x :: xs) (ys := y :: ys) hi ?_
      rw [List.map_cons, inter_cons, List.map_cons, inter_cons] at h
      rw [List.map_cons, List.flatMap_cons, List.map_cons, List.flatMap_cons, List.append_assoc, List.append_assoc,
        List.append_assoc, List.append_assoc]
      rw [List.append_assoc, List.append_assoc] at h
      rw [h]

/-! ### Values -/

theorem class_word : ∀ k : K, (k.text.toList.all wordChar && !k.text.toList.isEmpty) = true := by
  intro k; cases k <;> decide +kernel

theorem field_word : ∀ f : F, (f.text.toList.all wordChar && !f.text.toList.isEmpty) = true := by
  intro f; cases f <;> decide +kernel

theorem className_word {c : Cls} (h : RegularClass c) : (∀ x ∈ className c, wordChar x = true) ∧ className c ≠ [] := by
  cases c with
  | py k =>
    have := class_word k
    simp only [Bool.and_eq_true, List.all_eq_true, Bool.not_eq_true', List.isEmpty_eq_false_iff] at this
    exact this
  | marker n =>
    refine ⟨fun x hx => ?_, fun e => h.1 ?_⟩
    · have := h.2.1 x hx
      simp [wordChar, this]
    · exact String.toList_injective (e.trans (by decide))

theorem className_inj {c d : Cls} (hc : RegularClass c) (hd : RegularClass d) (h : className c = className d) : c = d := by
  have h' := h
  cases c with
  | py k =>
    cases d with
    | py k' =>
      have h1 := K.ofText_text k
      rw [String.toList_injective h, K.ofText_text] at h1
      rw [Option.some.inj h1]
    | marker n => exact absurd (String.toList_injective h) (hd.2.2 k)
  | marker n =>
    cases d with
    | py k => exact absurd (String.toList_injective h.symm) (hc.2.2 k)
    | marker n' => rw [String.toList_injective h]

theorem field_inj {f g : F} (h : f.text.toList = g.text.toList) : f = g := by
  have h1 := F.ofText_text f
  rw [String.toList_injective h, F.ofText_text] at h1
  exact (Option.some.inj h1).symm

/-- The fields and attributes that are shown. -/
def entries (o : Options) (c : Cls) (l : Loc) (fs : Fields) : List (Str × Val) :=
  fs.map (fun p => (p.1.text.toList, p.2)) ++ if o.attributes && c.hasLoc then attributes l else []

def entryText (H : Host) (o : Options) (inner : Nat) (e : Str × Val) : Str :=
  entry o e.1 (recurse H o (inner + e.1.length + 1) e.2)

theorem attr_scalar {H : Host} {o : Options} {l : Loc} {inner : Nat} :
    ((attributes l).map fun (k, v) => entry o k (scalar H v)) = (attributes l).map (entryText H o inner) := by
  have : ∀ (k : Str) (a : Attr), entry o k (scalar H (attrVal a)) = entryText H o inner (k, attrVal a) := by
    intro k a
    cases a <;> (unfold entryText; simp only [attrVal, Val.none]; rw [recurse]; rfl)
  simp only [attributes, List.map_cons, List.map_nil, this]

theorem fieldTexts_eq {H : Host} {o : Options} {inner : Nat} : ∀ {fs : Fields}, fieldTexts H o inner fs =
    (fs.map (fun p => (p.1.text.toList, p.2))).map (entryText H o inner)
  | [] => by rw [fieldTexts]; rfl
  | (f, v) :: fs => by
    rw [fieldTexts, fieldTexts_eq (fs := fs)]
    rfl

theorem itemTexts_eq {H : Host} {o : Options} {n : Nat} : ∀ {xs : List Val}, itemTexts H o n xs = xs.map (recurse H o n)
  | [] => by rw [itemTexts]; rfl
  | x :: xs => by rw [itemTexts, itemTexts_eq (xs := xs)]; rfl

theorem recurse_node {H : Host} {o : Options} {n : Nat} {c : Cls} {l : Loc} {fs : Fields} :
    recurse H o n (.node c l fs) = maybeColorize o Palette.node (className c) ++ lit "(" ++
      (separator o (n + (className c).length + 1)).intercalate
        ((entries o c l fs).map (entryText H o (n + (className c).length + 1))) ++ lit ")" := by
  rw [recurse]
  dsimp only
  rw [fieldTexts_eq]
  unfold entries
  split
  · rw [List.map_append, ← attr_scalar]
  · rw [List.append_nil, List.append_nil]

/-- The first character of a value. -/
def opening (c : Char) : Bool := wordChar c || c ∈ ['\'', '"', '(', '[']

theorem const_head {H : Host} {c : Const} (h : RegularConst c) : ∃ x w, reprConst H c = x :: w ∧ opening x = true := by
  rcases const_cases h with hw | ⟨s, rfl⟩ | ⟨b, rfl⟩ | ⟨r, s, rfl, -, hx⟩
  · obtain ⟨h1, h2⟩ := wordConst_chars (H := H) hw h
    cases e : reprConst H c with
    | nil => exact absurd e h2
    | cons x w => exact ⟨x, w, rfl, by unfold opening; rw [h1 x (by rw [e]; simp)]; rfl⟩
  · obtain ⟨q, hq, e⟩ := repr_str (H := H) (s := s)
    have e := e []
    rw [List.append_nil] at e
    exact ⟨q, _, e, by rcases hq with rfl | rfl <;> decide⟩
  · obtain ⟨q, hq, e⟩ := repr_bytes (H := H) (b := b)
    have e := e []
    rw [List.append_nil] at e
    exact ⟨'b', _, e, by decide⟩
  · exact ⟨'(', _, by rw [repr_complex, hx]; rfl, by decide⟩

theorem bracketed_head (sep : Str) (xs : List Str) : ∃ w, bracketed sep xs = '[' :: w := by
  cases xs with
  | nil => exact ⟨_, rfl⟩
  | cons x xs =>
    unfold bracketed
    dsimp only
    rw [inter_cons]
    exact ⟨_, rfl⟩

theorem recurse_head {H : Host} {o : Options} (ho : o.color = none) {n : Nat} {v : Val} (h : Regular v) :
    ∃ x w, recurse H o n v = x :: w ∧ opening x = true := by
  cases v with
  | const c => rw [recurse]; exact const_head (by rw [Regular] at h; exact h)
  | list xs =>
    rw [recurse]
    obtain ⟨w, e⟩ := bracketed_head (separator o (n + 1)) (itemTexts H o (n + 1) xs)
    exact ⟨_, w, e, by decide⟩
  | node c l fs =>
    rw [Regular] at h
    obtain ⟨h1, h2⟩ := className_word h.1
    rw [recurse_node]
    unfold maybeColorize
    rw [ho]
    cases e : className c with
    | nil => exact absurd e h2
    | cons x w =>
      refine ⟨x, _, rfl, ?_⟩
      unfold opening
      rw [h1 x (by rw [e]; simp)]; rfl

theorem opening_not_space {c : Char} (h : opening c = true) : Dialects.isSpace c = false := by
  unfold opening at h
  simp only [Bool.or_eq_true, decide_eq_true_eq, List.mem_cons, List.not_mem_nil, or_false] at h
  rcases h with h | h
  · unfold wordChar special at h
    unfold Dialects.isSpace
    simp only [Bool.not_eq_true', Bool.or_eq_false_iff, decide_eq_false_iff_not, List.contains_cons, List.contains_nil,
      Bool.and_eq_false_iff] at h
    simp only [Bool.or_eq_false_iff, Bool.and_eq_false_iff, decide_eq_false_iff_not]
    obtain ⟨⟨⟨h1, -⟩, h2⟩, h3⟩ := h
    obtain ⟨a1, a2, a3, a4, a5, a6, a7, a8, -⟩ := h2
    exact ⟨⟨⟨⟨⟨⟨⟨⟨⟨⟨by omega, by omega⟩, a1⟩, a2⟩, a3⟩, h3⟩, a4⟩, a5⟩, a6⟩, a7⟩, a8⟩
  · rcases h with rfl | rfl | rfl | rfl <;> decide

theorem bracketed_eq {sep : Str} {xs : List Str} (h : ∀ x ∈ xs, ∃ c w, x = c :: w ∧ Dialects.isSpace c = false) :
    bracketed sep xs = '[' :: (sep.intercalate xs ++ [']']) := by
  cases xs with
  | nil => rfl
  | cons x xs =>
    obtain ⟨c, w, rfl, hc⟩ := h x (by simp)
    unfold bracketed
    dsimp only
    rw [List.dropWhile_cons_of_neg (by simp [hc]), inter_cons, inter_cons]
    rfl

/-- The claim for a value: its text tells it from all others. -/
def Told (H : Host) (o : Options) (v : Val) : Prop :=
  ∀ (v' : Val) (n : Nat) (r r' : Str), Regular v' → Stop r → Stop r' → recurse H o n v ++ r = recurse H o n v' ++ r' →
    shown o.attributes v = shown o.attributes v' ∧ r = r'

theorem recurse_list {H : Host} {o : Options} (ho : o.color = none) {n : Nat} {xs : List Val} (h : ∀ x ∈ xs, Regular x) :
    recurse H o n (.list xs) = '[' :: ((separator o (n + 1)).intercalate (xs.map (recurse H o (n + 1))) ++ [']']) := by
  rw [recurse, itemTexts_eq, bracketed_eq]
  intro t ht
  obtain ⟨x, hx, rfl⟩ := List.mem_map.1 ht
  obtain ⟨c, w, e, hc⟩ := recurse_head (H := H) ho (n := n + 1) (h x hx)
  exact ⟨c, w, e, opening_not_space hc⟩

theorem recurse_plain {H : Host} {o : Options} (ho : o.color = none) {n : Nat} {c : Cls} {l : Loc} {fs : Fields} :
    recurse H o n (.node c l fs) = className c ++ '(' :: ((separator o (n + (className c).length + 1)).intercalate
        ((entries o c l fs).map (entryText H o (n + (className c).length + 1))) ++ [')']) := by
  rw [recurse_node]
  unfold maybeColorize
  rw [ho]
  simp only [List.append_assoc]
  rfl

theorem entryText_plain {H : Host} {o : Options} (ho : o.color = none) {n : Nat} {e : Str × Val} :
    entryText H o n e = e.1 ++ '=' :: recurse H o (n + e.1.length + 1) e.2 := by
  unfold entryText entry maybeColorizeValue maybeColorize
  rw [ho]
  simp only [ite_self, List.append_assoc]
  rfl

theorem regularL : ∀ {xs : List Val}, RegularL xs → ∀ x ∈ xs, Regular x
  | [], _, _, h => nomatch h
  | y :: ys, hr, x, h => by
    rw [RegularL] at hr
    rcases List.mem_cons.1 h with rfl | h
    · exact hr.1
    · exact regularL hr.2 x h

theorem regularF : ∀ {fs : Fields}, RegularF fs → ∀ p ∈ fs, Regular p.2
  | [], _, _, h => nomatch h
  | (f, v) :: fs, hr, x, h => by
    rw [RegularF] at hr
    rcases List.mem_cons.1 h with rfl | h
    · exact hr.1
    · exact regularF hr.2 x h

theorem shownL_eq {a : Bool} : ∀ {xs : List Val}, shownL a xs = xs.map (shown a)
  | [] => by rw [shownL]; rfl
  | x :: xs => by rw [shownL, shownL_eq (xs := xs)]; rfl

theorem shownF_eq {a : Bool} : ∀ {fs : Fields}, shownF a fs = fs.map fun p => (p.1, shown a p.2)
  | [] => by rw [shownF]; rfl
  | (f, x) :: xs => by rw [shownF, shownF_eq (fs := xs)]; rfl

/-- A word is followed by `(` only in a node. -/
theorem sig_value {H : Host} {o : Options} (ho : o.color = none) {n : Nat} {v : Val} (h : Regular v) {r : Str} (hr : Stop r) :
    (sig (recurse H o n v ++ r) = 5 ∧ ∃ c l fs, v = .node c l fs) ∨ (sig (recurse H o n v ++ r) = 3 ∧ ∃ xs, v = .list xs) ∨
    (sig (recurse H o n v ++ r) ∈ [1, 2, 4, 6] ∧ ∃ c, v = .const c) := by
  cases v with
  | const c =>
    refine .inr (.inr ⟨?_, c, rfl⟩)
    rw [recurse]
    rw [Regular] at h
    rcases sig_const (H := H) h hr with ⟨e, -⟩ | ⟨e, -⟩ | ⟨e, -⟩ | ⟨e, -⟩ <;> rw [e] <;> decide
  | list xs =>
    refine .inr (.inl ⟨?_, xs, rfl⟩)
    rw [Regular] at h
    rw [recurse_list ho (regularL h)]
    exact sig_list _
  | node c l fs =>
    refine .inl ⟨?_, c, l, fs, rfl⟩
    rw [Regular] at h
    obtain ⟨h1, h2⟩ := className_word h.1
    rw [recurse_plain ho, List.append_assoc]
    exact sig_node h1 h2 _

theorem told_const {H : Host} {o : Options} (ho : o.color = none) {c : Const} (hc : RegularConst c) : Told H o (.const c) := by
  intro v' n r r' hv hr hr' h
  have e1 := sig_value (H := H) ho (n := n) (v := .const c) (by rw [Regular]; exact hc) hr
  have e2 := sig_value (H := H) ho (n := n) hv hr'
  rw [h] at e1
  rcases e2 with ⟨e2, c', l', fs', rfl⟩ | ⟨e2, xs', rfl⟩ | ⟨-, d, rfl⟩
  · rw [e2] at e1; simp at e1
  · rw [e2] at e1; simp at e1
  · rw [recurse, recurse] at h
    rw [Regular] at hv
    obtain ⟨rfl, h1⟩ := const_inj hc hv hr hr' h
    exact ⟨rfl, h1⟩

theorem key_inj {H : Host} {o : Options} (ho : o.color = none) {n : Nat} {e e' : Str × Val}
    (hk : ∀ c ∈ e.1, wordChar c = true) (hk' : ∀ c ∈ e'.1, wordChar c = true) (ht : Told H o e.2) (hr : Regular e'.2)
    {s s' : Str} (hs : Stop s) (hs' : Stop s') (h : entryText H o n e ++ s = entryText H o n e' ++ s') :
    (e.1, shown o.attributes e.2) = (e'.1, shown o.attributes e'.2) ∧ s = s' := by
  rw [entryText_plain ho, entryText_plain ho, List.append_assoc, List.append_assoc] at h
  obtain ⟨h1, h2⟩ := word_eq hk hk' (stops_eq _) (stops_eq _) h
  rw [h1] at h2
  have h3 : recurse H o (n + e'.1.length + 1) e.2 ++ s = recurse H o (n + e'.1.length + 1) e'.2 ++ s' := (List.cons.inj h2).2
  obtain ⟨h4, h5⟩ := ht _ _ _ _ hr hs hs' h3
  exact ⟨by rw [h1, h4], h5⟩

theorem attr_entry {l : Loc} {e : Str × Val} (h : e ∈ attributes l) :
    (∀ c ∈ e.1, wordChar c = true) ∧ e.1 ≠ [] ∧ ∃ c, e.2 = .const c ∧ RegularConst c := by
  have ha : ∀ a : Attr, ∃ c, attrVal a = .const c ∧ RegularConst c := by
    intro a
    cases a with
    | int n => exact ⟨_, rfl, trivial⟩
    | _ => exact ⟨_, rfl, trivial⟩
  simp only [attributes, List.mem_cons, List.not_mem_nil, or_false] at h
  rcases h with rfl | rfl | rfl | rfl
  · exact ⟨show ∀ c ∈ lit "lineno", _ by decide, show lit "lineno" ≠ [] by decide, ha _⟩
  · exact ⟨show ∀ c ∈ lit "col_offset", _ by decide, show lit "col_offset" ≠ [] by decide, ha _⟩
  · exact ⟨show ∀ c ∈ lit "end_lineno", _ by decide, show lit "end_lineno" ≠ [] by decide, ha _⟩
  · exact ⟨show ∀ c ∈ lit "end_col_offset", _ by decide, show lit "end_col_offset" ≠ [] by decide, ha _⟩

theorem entry_regular {o : Options} {c : Cls} {l : Loc} {fs : Fields} (h : RegularF fs) {e : Str × Val} (he : e ∈ entries o c l fs) :
    (∀ c ∈ e.1, wordChar c = true) ∧ e.1 ≠ [] ∧ Regular e.2 := by
  unfold entries at he
  rcases List.mem_append.1 he with he | he
  · obtain ⟨p, hp, rfl⟩ := List.mem_map.1 he
    have := field_word p.1
    simp only [Bool.and_eq_true, List.all_eq_true, Bool.not_eq_true', List.isEmpty_eq_false_iff] at this
    exact ⟨this.1, this.2, regularF h p hp⟩
  · split at he
    · obtain ⟨h1, h2, c, h3, h4⟩ := attr_entry he
      exact ⟨h1, h2, by rw [h3, Regular]; exact h4⟩
    · cases he

theorem told_node {H : Host} {o : Options} (ho : o.color = none) {c : Cls} {l : Loc} {fs : Fields} (hc : RegularClass c)
    (hf : RegularF fs) (hi : ∀ p ∈ fs, Told H o p.2) : Told H o (.node c l fs) := by
  intro v' n r r' hv hr hr' h
  have e1 := sig_value (H := H) ho (n := n) (v := .node c l fs) (by rw [Regular]; exact ⟨hc, hf⟩) hr
  have e2 := sig_value (H := H) ho (n := n) hv hr'
  rw [h] at e1
  rcases e2 with ⟨e2, c', l', fs', rfl⟩ | ⟨e2, xs', rfl⟩ | ⟨e2, d, rfl⟩
  · rw [Regular] at hv
    rw [recurse_plain ho, recurse_plain ho, List.append_assoc, List.append_assoc, List.cons_append, List.cons_append,
      List.append_assoc, List.append_assoc] at h
    obtain ⟨h1, h2⟩ := word_eq (className_word hc).1 (className_word hv.1).1 (stops_paren _) (stops_paren _) h
    obtain rfl := className_inj hc hv.1 h1
    have h3 := (List.cons.inj h2).2
    have nb : ∀ {l : Loc} {fs : Fields}, RegularF fs → ∀ x ∈ entries o c l fs, ∀ s s',
        entryText H o (n + (className c).length + 1) x ++ s ≠ ')' :: s' := by
      intro l fs hf x hx s s' e
      obtain ⟨a1, a2, -⟩ := entry_regular hf hx
      rw [entryText_plain ho] at e
      cases hx1 : x.1 with
      | nil => exact a2 hx1
      | cons y w =>
        rw [hx1] at e a1
        have := (List.cons.inj e).1
        subst this
        have := a1 ')' (by simp)
        revert this; decide
    obtain ⟨h4, h5⟩ := inter_inj (f := fun e => (e.1, shown o.attributes e.2)) (.inl rfl) (nb hf) (nb hv.2)
      (fun x hx y hy s s' hs hs' e => by
        obtain ⟨a1, a2, a3⟩ := entry_regular hf hx
        obtain ⟨b1, b2, b3⟩ := entry_regular hv.2 hy
        refine key_inj ho a1 b1 ?_ b3 hs hs' e
        unfold entries at hx
        rcases List.mem_append.1 hx with hx | hx
        · obtain ⟨p, hp, rfl⟩ := List.mem_map.1 hx
          exact hi p hp
        · split at hx
          · obtain ⟨-, -, c, h3, h4⟩ := attr_entry hx
            rw [h3]; exact told_const ho h4
          · cases hx) h3
    refine ⟨?_, h5⟩
    rw [shown, shown, shownF_eq, shownF_eq]
    unfold entries at h4
    rw [List.map_append, List.map_append] at h4
    have hlen : ∀ l : Loc, ((if o.attributes && c.hasLoc then attributes l else []).map
        fun e => (e.1, shown o.attributes e.2)).length = if o.attributes && c.hasLoc then 4 else 0 := by
      intro l; split <;> rfl
    obtain ⟨h6, h7⟩ := List.append_inj' h4 (by rw [hlen, hlen])
    have h8 : fs.map (fun p => (p.1, shown o.attributes p.2)) = fs'.map fun p => (p.1, shown o.attributes p.2) := by
      have g : ∀ {fs fs' : Fields}, (fs.map (fun p => (p.1.text.toList, p.2))).map (fun e => (e.1, shown o.attributes e.2)) =
          (fs'.map (fun p => (p.1.text.toList, p.2))).map (fun e => (e.1, shown o.attributes e.2)) →
          fs.map (fun p => (p.1, shown o.attributes p.2)) = fs'.map fun p => (p.1, shown o.attributes p.2) := by
        intro fs
        induction fs with
        | nil => intro fs' h; cases fs' with
          | nil => rfl
          | cons => cases h
        | cons p fs ih =>
          intro fs' h
          cases fs' with
          | nil => cases h
          | cons p' fs' =>
            have h := List.cons.inj h
            have a := (Prod.mk.inj h.1)
            rw [List.map_cons, List.map_cons, ih h.2, field_inj a.1]
            have := a.2
            dsimp only at this
            rw [this]
      exact g h6
    rw [h8]
    congr 1
    unfold seenLoc
    by_cases hb : o.attributes = true ∧ c.hasLoc = true
    · rw [if_pos hb, if_pos hb]
      rw [if_pos (by simp [hb.1, hb.2]), if_pos (by simp [hb.1, hb.2])] at h7
      have sv : ∀ a b : Attr, shown o.attributes (attrVal a) = shown o.attributes (attrVal b) → seen a = seen b := by
        intro a b
        cases a <;> cases b <;> simp [attrVal, shown, seen, Val.none]
      simp only [attributes, List.map_cons, List.map_nil, List.cons.injEq, Prod.mk.injEq, true_and, and_true] at h7
      rw [sv _ _ h7.1, sv _ _ h7.2.1, sv _ _ h7.2.2.1, sv _ _ h7.2.2.2]
    · rw [if_neg hb, if_neg hb]
  · rw [e2] at e1; simp at e1
  · rcases e1 with ⟨e1, -⟩ | ⟨-, _, h⟩ | ⟨-, _, h⟩
    · rw [e1] at e2; simp at e2
    · cases h
    · cases h

theorem told_list {H : Host} {o : Options} (ho : o.color = none) {xs : List Val} (hx : ∀ x ∈ xs, Regular x)
    (hi : ∀ x ∈ xs, Told H o x) (hl : RegularL xs) : Told H o (.list xs) := by
  intro v' n r r' hv hr hr' h
  have e1 := sig_value (H := H) ho (n := n) (v := .list xs) (by rw [Regular]; exact hl) hr
  have e2 := sig_value (H := H) ho (n := n) hv hr'
  rw [h] at e1
  rcases e2 with ⟨e2, c', l', fs', rfl⟩ | ⟨e2, xs', rfl⟩ | ⟨e2, d, rfl⟩
  · rw [e2] at e1; simp at e1
  · rw [Regular] at hv
    have hx' := regularL hv
    rw [recurse_list ho hx, recurse_list ho hx'] at h
    rw [List.cons_append, List.cons_append, List.append_assoc, List.append_assoc] at h
    have h3 := (List.cons.inj h).2
    have nb : ∀ {xs : List Val}, (∀ x ∈ xs, Regular x) → ∀ x ∈ xs, ∀ s s', recurse H o (n + 1) x ++ s ≠ ']' :: s' := by
      intro xs hxs x hx s s' e
      obtain ⟨c, w, e', hc⟩ := recurse_head (H := H) ho (n := n + 1) (hxs x hx)
      rw [e'] at e
      have := (List.cons.inj e).1
      subst this
      revert hc; decide
    obtain ⟨h4, h5⟩ := inter_inj (f := shown o.attributes) (.inr rfl) (nb hx) (nb hx')
      (fun x hm y hy s s' hs hs' e => hi x hm y _ s s' (hx' y hy) hs hs' e) h3
    exact ⟨by rw [shown, shown, shownL_eq, shownL_eq, h4], h5⟩
  · rcases e1 with ⟨-, _, _, _, h⟩ | ⟨e1, -⟩ | ⟨-, _, h⟩
    · cases h
    · rw [e1] at e2; simp at e2
    · cases h

mutual
theorem told {H : Host} {o : Options} (ho : o.color = none) (v : Val) (h : Regular v) : Told H o v := by
  match v with
  | .const c => rw [Regular] at h; exact told_const ho h
  | .list xs => rw [Regular] at h; exact told_list ho (regularL h) (toldL ho xs h) h
  | .node c l fs => rw [Regular] at h; exact told_node ho h.1 h.2 (toldF ho fs h.2)
termination_by structural v
theorem toldL {H : Host} {o : Options} (ho : o.color = none) (xs : List Val) (h : RegularL xs) : ∀ x ∈ xs, Told H o x := by
  match xs with
  | [] => intro x hx; cases hx
  | y :: ys =>
    rw [RegularL] at h
    intro x hx
    rcases List.mem_cons.1 hx with hx | hx
    · rw [hx]; exact told ho y h.1
    · exact toldL ho ys h.2 x hx
termination_by structural xs
theorem toldF {H : Host} {o : Options} (ho : o.color = none) (fs : Fields) (h : RegularF fs) : ∀ p ∈ fs, Told H o p.2 := by
  match fs with
  | [] => intro x hx; cases hx
  | (f, v) :: fs =>
    rw [RegularF] at h
    intro x hx
    rcases List.mem_cons.1 hx with hx | hx
    · rw [hx]; exact told ho v h.1
    · exact toldF ho fs h.2 x hx
termination_by structural fs
end

end Mcpyrate.Dump
