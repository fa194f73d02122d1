import Verif.Spec.SourceInfo
import Verif.Lemmas.DumpColor
import Verif.Lemmas.Fields
import Verif.Lemmas.PyTokens
namespace Mcpyrate.SourceInfo
open Py

/-! Line numbers. -/

/-- What is returned occurs. -/
def Occ (r : Option Int) (l : List Attr) : Prop := ∀ n, r = some n → .int n ∈ l

theorem Occ.right {r : Option Int} {a b : List Attr} (h : Occ r b) : Occ r (a ++ b) :=
  fun n hn => List.mem_append_right _ (h n hn)

mutual
theorem occ : ∀ t : Val, Occ (getLineno t) (linenos t)
  | .const _ => by intro n h; cases h
  | .list xs => occL xs
  | .node c l fs => by
    rw [getLineno.eq_def, linenos]
    dsimp only
    cases h : l.lineno with
    | int n =>
      intro m hm
      cases hm
      simp
    | none => intro n hn; cases hn
    | missing =>
      simp only [if_true, List.nil_append]
      cases c with
      | py k => exact occF fs
      | marker s =>
        dsimp only
        split
        · exact occB fs
        · exact occF fs
theorem occB : ∀ fs : Fields, Occ (inBody fs) (linenosF fs)
  | [] => by intro n h; cases h
  | (f, v) :: r => by
    rw [inBody, linenosF]
    split
    · exact fun n hn => List.mem_append_left _ (occ v n hn)
    · exact (occB r).right
theorem occF : ∀ fs : Fields, Occ (inFields fs) (linenosF fs)
  | [] => by intro n h; cases h
  | (f, v) :: r => by
    rw [inFields, linenosF]
    cases h : getLineno v with
    | none => exact (occF r).right
    | some m =>
      dsimp only
      split
      · exact (occF r).right
      · intro n hn
        cases hn
        exact List.mem_append_left _ (occ v _ h)
theorem occL : ∀ xs : List Val, Occ (inItems xs) (linenosL xs)
  | [] => by intro n h; cases h
  | v :: r => by
    rw [inItems, linenosL]
    cases h : getLineno v with
    | none => exact (occL r).right
    | some m =>
      dsimp only
      split
      · exact (occL r).right
      · intro n hn
        cases hn
        exact List.mem_append_left _ (occ v _ h)
end

/-- The first of the attributes. -/
def first : List Attr → Option Int
  | .int n :: _ => some n
  | _ => none

theorem firstLine_eq (t : Val) : firstLine t = first (linenos t) := by
  unfold firstLine
  generalize linenos t = l
  cases l with
  | nil => rfl
  | cons a l => cases a <;> rfl

/-- Numbers other than 0. -/
def Pos (l : List Attr) : Prop := ∀ a ∈ l, ∃ n, a = .int n ∧ n ≠ 0

theorem Pos.left {a b : List Attr} (h : Pos (a ++ b)) : Pos a := fun x hx => h x (List.mem_append_left _ hx)
theorem Pos.right {a b : List Attr} (h : Pos (a ++ b)) : Pos b := fun x hx => h x (List.mem_append_right _ hx)

theorem first_cases {l : List Attr} (h : Pos l) : l = [] ∧ first l = none ∨ ∃ n r, l = .int n :: r ∧ n ≠ 0 ∧ first l = some n := by
  cases l with
  | nil => exact .inl ⟨rfl, rfl⟩
  | cons a r =>
    obtain ⟨n, rfl, hn⟩ := h a (by simp)
    exact .inr ⟨n, r, rfl, hn, rfl⟩

/-- The step of both loops. -/
theorem first_append {a b : List Attr} (h : Pos (a ++ b)) : first (a ++ b) =
    match first a with
    | some n => if n = 0 then first b else some n
    | none => first b := by
  rcases first_cases h.left with ⟨rfl, _⟩ | ⟨n, r, rfl, hn, _⟩
  · rfl
  · show some n = if n = 0 then first b else some n
    rw [if_neg hn]

theorem linenosF_append (a b : Fields) : linenosF (a ++ b) = linenosF a ++ linenosF b := by
  induction a with
  | nil => rfl
  | cons x a ih =>
    obtain ⟨f, v⟩ := x
    rw [List.cons_append, linenosF, linenosF, ih, List.append_assoc]

/-- The attributes in the first body. -/
def firstBody : Fields → List Attr
  | [] => []
  | (f, v) :: r => if f = .body then linenos v else firstBody r

theorem firstBody_at {a b : Fields} {v : Val} (h : ∀ w, (F.body, w) ∉ a) : firstBody (a ++ (.body, v) :: b) = linenos v := by
  induction a with
  | nil => rw [List.nil_append, firstBody, if_pos rfl]
  | cons x a ih =>
    obtain ⟨f, w⟩ := x
    rw [List.cons_append, firstBody, if_neg (fun hf => h w (by rw [hf]; simp)), ih fun u hu => h u (by simp [hu])]

mutual
theorem get_first : ∀ t : Val, Pos (linenos t) → Markers t → getLineno t = first (linenos t)
  | .const _, _, _ => rfl
  | .list xs, hp, hm => by
    rw [getLineno, linenos]
    rw [linenos] at hp
    rw [Markers] at hm
    exact items_first xs hp hm
  | .node c l fs, hp, hm => by
    rw [getLineno.eq_def]
    dsimp only
    rw [linenos] at hp ⊢
    rw [Markers] at hm
    cases h : l.lineno with
    | int n => rfl
    | none =>
      rw [h] at hp
      obtain ⟨n, hn, _⟩ := hp .none (by simp)
      cases hn
    | missing =>
      rw [h, if_pos rfl, List.nil_append] at hp
      simp only [if_true, List.nil_append]
      cases c with
      | py k => exact fields_first fs hp hm.2
      | marker s =>
        dsimp only
        rcases hm.1 with hb | ⟨a, v, b, he, ha, h1, h2⟩
        · rw [if_neg]
          · exact fields_first fs hp hm.2
          · intro hc
            obtain ⟨x, hx, hc⟩ := List.any_eq_true.1 hc
            obtain ⟨f, v⟩ := x
            have : f = F.body := by simpa using hc
            exact hb v (this ▸ hx)
        · rw [if_pos]
          · have hL : linenosF fs = linenos v := by
              rw [he, linenosF_append, linenosF, h1, h2, List.nil_append, List.append_nil]
            rw [body_first fs hp hm.2, hL]
            rw [he, firstBody_at ha]
          · rw [he]; simp
theorem body_first : ∀ fs : Fields, Pos (linenosF fs) → MarkersF fs → inBody fs = first (firstBody fs)
  | [], _, _ => rfl
  | (f, v) :: r, hp, hm => by
    rw [linenosF] at hp
    rw [MarkersF] at hm
    rw [inBody, firstBody]
    split
    · exact get_first v hp.left hm.1
    · exact body_first r hp.right hm.2
theorem fields_first : ∀ fs : Fields, Pos (linenosF fs) → MarkersF fs → inFields fs = first (linenosF fs)
  | [], _, _ => rfl
  | (f, v) :: r, hp, hm => by
    rw [linenosF] at hp ⊢
    rw [MarkersF] at hm
    rw [inFields, first_append hp, get_first v hp.left hm.1, fields_first r hp.right hm.2]
    rfl
theorem items_first : ∀ xs : List Val, Pos (linenosL xs) → MarkersL xs → inItems xs = first (linenosL xs)
  | [], _, _ => rfl
  | v :: r, hp, hm => by
    rw [linenosL] at hp ⊢
    rw [MarkersL] at hm
    rw [inItems, first_append hp, get_first v hp.left hm.1, items_first r hp.right hm.2]
    rfl
end

/-! Numbers. -/

theorem isDigit_iff {c : Char} : PyText.isDigit c = true ↔ 48 ≤ c.toNat ∧ c.toNat ≤ 57 := by
  unfold PyText.isDigit
  simp

theorem natVal_eq (s : Str) : PyText.natVal s = digitsValue s := rfl

theorem decimal_pos {n : Nat} (hn : n ≠ 0) : Unparse.decimal n ≠ [] ∧
    (∀ c ∈ Unparse.decimal n, 48 ≤ c.toNat ∧ c.toNat ≤ 57) ∧ (Unparse.decimal n).head? ≠ some '0' ∧
    digitsValue (Unparse.decimal n) = n := by
  obtain ⟨h1, h2, h3⟩ := PyText.decimal_ok n
  refine ⟨h1.1, fun c hc => isDigit_iff.1 (h1.2 c hc), fun hc => ?_, h2⟩
  rw [h3 hc] at h2
  exact hn h2.symm

theorem numeral : ∀ n : Int, Numeral n (Unparse.reprInt n)
  | .ofNat 0 => .zero
  | .ofNat (n + 1) => by
    obtain ⟨h1, h2, h3, h4⟩ := decimal_pos (n := n + 1) (by omega)
    have := Numeral.pos h1 h2 h3
    rw [h4] at this
    exact this
  | .negSucc n => by
    obtain ⟨h1, h2, h3, h4⟩ := decimal_pos (n := n + 1) (by omega)
    have := Numeral.neg h1 h2 h3
    rw [h4] at this
    exact this

theorem line_text (n : Option Int) : LineText n (lineText n) := by
  cases n with
  | none => exact .none
  | some n => exact .some (numeral n)

theorem numeral_chars {n : Int} {s : Str} (h : Numeral n s) : ∀ c ∈ s, c = '-' ∨ 48 ≤ c.toNat ∧ c.toNat ≤ 57 := by
  cases h with
  | zero => intro c hc; exact .inr (by simp at hc; subst hc; decide)
  | pos _ h _ => exact fun c hc => .inr (h c hc)
  | neg _ h _ =>
    intro c hc
    rcases List.mem_cons.1 hc with rfl | hc
    · exact .inl rfl
    · exact .inr (h c hc)

theorem lineText_plain {n : Option Int} {s : Str} (h : LineText n s) {d : Char} (hd : d = ':' ∨ d = '\n' ∨ d = '\x1b') : d ∉ s := by
  cases h with
  | none => rcases hd with rfl | rfl | rfl <;> decide
  | some h =>
    intro hc
    rcases numeral_chars h d hc with rfl | h
    · rcases hd with h | h | h <;> cases h
    · rcases hd with rfl | rfl | rfl <;> revert h <;> decide

/-! Locations. -/

open Dump (Vis visible Codes)

theorem vis_plain {s : Str} (h : '\x1b' ∉ s) : Vis s s := Vis.plain fun c hc he => h (he ▸ hc)

theorem vis_colorize {reset set t : Str} (hr : Codes reset) (hs : Codes set) (ht : '\x1b' ∉ t) :
    Vis (colorize reset set t) t := by
  have := ((hr.vis.append hs.vis).append (vis_plain ht)).append hr.vis
  simpa [colorize] using this

theorem vis_visible {t p : Str} (h : Vis t p) : visible false t = p := by
  have := h []
  rw [List.append_nil] at this
  rw [this]
  exact List.append_nil _

/-! Lines. -/

theorem split_lines : ∀ t : Str, Lines (splitLines t) t
  | [] => .last (by simp)
  | c :: r => by
    have ih := split_lines r
    rw [splitLines]
    split
    · rename_i h
      subst h
      exact .cons (l := []) (by simp) ih
    · rename_i h
      have h' : '\n' ≠ c := fun e => h e.symm
      generalize splitLines r = ls at ih
      cases ih with
      | last hl => exact .last (by simp [h', hl])
      | @cons l ls t hl ih => exact Lines.cons (l := c :: l) (by simp [h', hl]) ih

theorem lines_unique {ls ls' : List Str} {t t' : Str} (h : Lines ls t) (h' : Lines ls' t') (he : t = t') : ls = ls' := by
  have cut : ∀ {a b s u : Str}, '\n' ∉ a → '\n' ∉ b → a ++ '\n' :: s = b ++ '\n' :: u → a = b ∧ s = u := by
    intro a
    induction a with
    | nil =>
      intro b s u _ hb h
      cases b with
      | nil => cases h; exact ⟨rfl, rfl⟩
      | cons x b => cases h; exact absurd List.mem_cons_self hb
    | cons x a ih =>
      intro b s u ha hb h
      cases b with
      | nil => cases h; exact absurd List.mem_cons_self ha
      | cons y b =>
        rw [List.cons_append, List.cons_append, List.cons.injEq] at h
        obtain ⟨rfl, rfl⟩ := ih (fun hc => ha (List.mem_cons_of_mem _ hc)) (fun hc => hb (List.mem_cons_of_mem _ hc)) h.2
        exact ⟨by rw [h.1], rfl⟩
  induction h generalizing ls' t' with
  | last hl =>
    cases h' with
    | last => rw [he]
    | cons _ _ => exact absurd (by rw [he]; simp) hl
  | cons hl _ ih =>
    cases h' with
    | last hl' => exact absurd (by rw [← he]; simp) hl'
    | cons hl' h' =>
      obtain ⟨rfl, rfl⟩ := cut hl hl' he
      rw [ih h' rfl]

theorem join_lines {ls : List Str} {t : Str} (h : Lines ls t) : joinLines ls = t := by
  induction h with
  | last => rfl
  | cons _ h ih =>
    cases h with
    | last => rw [joinLines, ih]; intro h; cases h
    | cons _ _ => rw [joinLines, ih]; intro h; cases h

theorem lines_join : ∀ {ls : List Str}, ls ≠ [] → (∀ l ∈ ls, '\n' ∉ l) → Lines ls (joinLines ls)
  | [], h, _ => absurd rfl h
  | [l], _, h => .last (h l (by simp))
  | l :: m :: ls, _, h => .cons (h l (by simp)) (lines_join (by simp) fun x hx => h x (by simp [hx]))

theorem lines_plain {ls : List Str} {t : Str} (h : Lines ls t) : ls ≠ [] ∧ ∀ l ∈ ls, '\n' ∉ l := by
  induction h with
  | last hl => exact ⟨by simp, by simpa using hl⟩
  | cons hl _ ih =>
    refine ⟨by simp, fun x hx => ?_⟩
    rcases List.mem_cons.1 hx with rfl | hx
    · exact hl
    · exact ih.2 x hx

theorem lines_snoc {ls : List Str} {t : Str} (h : Lines ls t) {l : Str} (hl : '\n' ∉ l) : Lines (ls ++ [l]) (t ++ '\n' :: l) := by
  induction h with
  | last h => exact .cons h (.last hl)
  | cons h _ ih => rw [List.append_assoc]; exact .cons h ih

theorem lines_mem {ls : List Str} {t : Str} (h : Lines ls t) : ∀ l ∈ ls, ∀ c ∈ l, c ∈ t := by
  induction h with
  | last => intro l hl c hc; simp at hl; subst hl; exact hc
  | cons _ _ ih =>
    intro l hl c hc
    rcases List.mem_cons.1 hl with rfl | hl
    · exact List.mem_append_left _ hc
    · exact List.mem_append_right _ (List.mem_cons_of_mem _ (ih l hl c hc))

theorem Shows.vis {t p : Str} (h : Shows t p) : Vis t p := by
  induction h with
  | nil => exact Vis.nil
  | char hc _ ih => exact (vis_plain (s := [_]) (by simpa using hc.symm)).append ih
  | @code s t p hs _ ih =>
    have h1 : Codes ('\x1b' :: s ++ 'm' :: []) := .cons (fun c hc => (hs c hc).1) .nil
    have := (Codes.vis h1).append ih
    simpa using this

theorem Shows.newline {t p : Str} (h : Shows t p) : '\n' ∈ t ↔ '\n' ∈ p := by
  induction h with
  | nil => exact Iff.rfl
  | char _ _ ih => rw [List.mem_cons, List.mem_cons, ih]
  | @code s t p hs _ ih =>
    rw [← ih, List.mem_append, List.mem_cons, List.mem_cons]
    constructor
    · rintro ((h | h) | h | h)
      · cases h
      · exact absurd rfl (hs _ h).2
      · cases h
      · exact h
    · exact fun h => .inr (.inr h)

theorem located {reset set filename : Str} (hr : Codes reset) (hs : Codes set) (hf : '\x1b' ∉ filename) (t : Val)
    {code seen : Str} (hc : Shows code seen) (he : seen = [] → code = []) : Located filename (lineText (getLineno t)) seen
      (visible false (formatLocation reset set filename t code)) := by
  have hl : '\x1b' ∉ lineText (getLineno t) := lineText_plain (line_text _) (.inr (.inr rfl))
  unfold formatLocation
  generalize lineText (getLineno t) = line at hl
  have key : ∀ {rest q : Str}, Vis rest q → visible false (colorize reset set filename ++ lit ":" ++ line ++ lit ":" ++ rest) =
      filename ++ ':' :: line ++ ':' :: q := by
    intro rest q hrest
    have := ((((vis_colorize hr hs hf).append (vis_plain (s := lit ":") (by decide))).append (vis_plain hl)).append
      (vis_plain (s := lit ":") (by decide))).append hrest
    rw [vis_visible this]
    simp [lit]
  by_cases h0 : code = []
  · subst h0
    cases hc
    rw [show (if ([] : Str).isEmpty = true then ([] : Str)
      else (if '\n' ∈ ([] : Str) then lit "\n" else lit " ") ++ []) = [] from rfl, key Vis.nil]
    exact .bare
  · rw [if_neg (by simpa using h0)]
    by_cases hn : '\n' ∈ code
    · rw [if_pos hn, key ((vis_plain (s := lit "\n") (by decide)).append hc.vis)]
      exact .block (hc.newline.1 hn)
    · rw [if_neg hn, key ((vis_plain (s := lit " ") (by decide)).append hc.vis)]
      exact .oneLine (fun h => h0 (he h)) (fun h => hn (hc.newline.2 h))

theorem shows_lines {t p : Str} (h : Shows t p) : ∃ ls, Lines ls t ∧ Lines (ls.map (visible false)) p ∧
    ∀ l ∈ ls, ∃ q, Shows l q := by
  have grow : ∀ {w q : Str} {ls : List Str} {t p : Str}, '\n' ∉ w → '\n' ∉ q → Vis w q →
      (∀ l r, Shows l r → Shows (w ++ l) (q ++ r)) → Lines ls t → Lines (ls.map (visible false)) p →
      (∀ l ∈ ls, ∃ q, Shows l q) → ∃ ls, Lines ls (w ++ t) ∧ Lines (ls.map (visible false)) (q ++ p) ∧
        ∀ l ∈ ls, ∃ q, Shows l q := by
    intro w q ls t p hw hq hv hs h1 h2 h3
    cases h1 with
    | last hl =>
      refine ⟨[w ++ t], .last (by simp [hw, hl]), ?_, ?_⟩
      · generalize hm : [t].map (visible false) = m at h2
        cases h2 with
        | last hp =>
          simp only [List.map_cons, List.map_nil, List.cons.injEq, and_true] at hm ⊢
          rw [hv t, hm]
          exact .last (by simp [hq, hp])
        | cons _ h => have := congrArg List.length hm; cases h <;> simp at this
      · intro l hl
        obtain ⟨r, hr⟩ := h3 t (by simp)
        simp at hl
        subst hl
        exact ⟨_, hs _ _ hr⟩
    | @cons l ls t hl h1 =>
      refine ⟨(w ++ l) :: ls, ?_, ?_, ?_⟩
      · rw [← List.append_assoc]
        exact .cons (by simp [hw, hl]) h1
      · generalize hm : (l :: ls).map (visible false) = m at h2
        rw [List.map_cons, hv l]
        rw [List.map_cons] at hm
        cases h2 with
        | last _ => have := congrArg List.length hm; cases h1 <;> simp at this
        | @cons l' ls' p' hp h2 =>
          rw [List.cons.injEq] at hm
          rw [hm.1, hm.2, ← List.append_assoc]
          exact .cons (by simp [hq, hp]) h2
      · intro x hx
        rcases List.mem_cons.1 hx with rfl | hx
        · obtain ⟨r, hr⟩ := h3 l (by simp)
          exact ⟨_, hs _ _ hr⟩
        · exact h3 x (by simp [hx])
  induction h with
  | nil => exact ⟨[[]], .last (by simp), show Lines [[]] [] from .last (by simp), by simpa using ⟨_, Shows.nil⟩⟩
  | @char c t p hc _ ih =>
    obtain ⟨ls, h1, h2, h3⟩ := ih
    by_cases hn : c = '\n'
    · subst hn
      refine ⟨[] :: ls, .cons (l := []) (by simp) h1, .cons (l := []) (by simp) h2, ?_⟩
      intro l hl
      rcases List.mem_cons.1 hl with rfl | hl
      · exact ⟨_, .nil⟩
      · exact h3 l hl
    · have hn' : '\n' ∉ [c] := by simpa using fun e => hn e.symm
      exact grow (w := [c]) (q := [c]) hn' hn' (vis_plain (by simpa using hc.symm)) (fun l r h => .char hc h) h1 h2 h3
  | @code s t p hs _ ih =>
    obtain ⟨ls, h1, h2, h3⟩ := ih
    have hv : Vis ('\x1b' :: s ++ ['m']) [] := (Dump.Codes.cons (fun c hc => (hs c hc).1) .nil).vis
    have := grow (w := '\x1b' :: s ++ ['m']) (q := []) (by simpa using fun h => (hs _ h).2 rfl) (by simp) hv
      (fun l r h => by
        have := Shows.code hs h
        simpa using this) h1 h2 h3
    simpa using this

theorem vis_join : ∀ {ls : List Str}, (∀ l ∈ ls, ∃ q, Shows l q) → Vis (joinLines ls) (joinLines (ls.map (visible false)))
  | [], _ => Vis.nil
  | [l], h => by
    obtain ⟨q, hq⟩ := h l (by simp)
    have := hq.vis
    rw [← vis_visible this] at this
    exact this
  | l :: m :: ls, h => by
    obtain ⟨q, hq⟩ := h l (by simp)
    have h1 := hq.vis
    rw [← vis_visible h1] at h1
    have h2 := vis_join (ls := m :: ls) fun x hx => h x (List.mem_cons_of_mem _ hx)
    have := h1.append ((vis_plain (s := ['\n']) (by decide)).append h2)
    exact this

theorem context {reset grey : Str} (hr : Codes reset) (hg : Codes grey) {n : Nat} (hn : 0 < n) {text seen : Str}
    (ht : Shows text seen) {ls : List Str} (h : Lines ls seen) :
    Lines (if ls.length ≤ n then ls else ls.take n ++ ["...".toList]) (visible false (formatContext reset grey n text)) := by
  obtain ⟨ks, h1, h2, h3⟩ := shows_lines ht
  have he : splitLines text = ks := lines_unique (split_lines text) h1 rfl
  cases lines_unique h2 h rfl
  unfold formatContext
  dsimp only
  rw [he, List.length_map]
  by_cases hle : ks.length ≤ n
  · rw [if_pos hle, if_neg (Nat.not_lt.2 hle), List.append_nil, List.take_of_length_le hle, join_lines h1,
      vis_visible ht.vis]
    exact h
  · rw [if_neg hle, if_pos (Nat.not_le.1 hle)]
    have hv := (vis_join (ls := ks.take n) fun l hl => h3 l (List.mem_of_mem_take hl)).append
      ((vis_plain (s := lit "\n") (by decide)).append (vis_colorize hr hg (t := lit "...") (by decide)))
    rw [vis_visible hv, List.map_take]
    refine lines_snoc (lines_join ?_ fun l hl => (lines_plain h).2 l (List.mem_of_mem_take hl)) (by decide)
    intro h0
    have := congrArg List.length h0
    rw [List.length_take, List.length_nil, List.length_map] at this
    omega

/-! The validator. -/

theorem opt_lineno (k : K) : k.isOptional .lineno = false := by cases k <;> rfl

theorem text_special (f : F) : f.text ≠ "col_offset" ∧ f.text ≠ "end_lineno" ∧ f.text ≠ "end_col_offset" ∧
    (f.text = "lineno" → f = .lineno) := by
  cases f <;> decide

/-- What `hasattr` says of a field name. -/
def hasField (c : Cls) (fs : Fields) (f : F) : Bool :=
  fs.any (·.1 = f) || (match c with | .py k => k.isOptional f | .marker _ => false)

theorem has_field (c : Cls) (l : Loc) (fs : Fields) (f : F) (hf : hasField c fs f = true) :
    hasattr c l fs f.text = true := by
  unfold hasattr
  obtain ⟨h1, h2, h3, h4⟩ := text_special f
  split
  · rename_i h0
    cases h4 h0
    unfold hasField at hf
    cases c with
    | py k =>
      dsimp only at hf
      rw [opt_lineno k, Bool.or_false] at hf
      rw [hf, Bool.or_true]
    | marker =>
      dsimp only at hf
      rw [Bool.or_false] at hf
      rw [hf, Bool.or_true]
  · rename_i h0; exact absurd h0 h1
  · rename_i h0; exact absurd h0 h2
  · rename_i h0; exact absurd h0 h3
  · rw [F.ofText_text]
    exact hf

theorem has_iff (c : Cls) (l : Loc) (fs : Fields) (x : String) : hasattr c l fs x = true ↔ Has (.node c l fs) x := by
  constructor
  · intro h
    unfold hasattr at h
    split at h
    · rcases Bool.or_eq_true _ _ ▸ h with h | h
      · exact .lineno (by simpa using h)
      · obtain ⟨⟨f, v⟩, hm, hf⟩ := List.any_eq_true.1 h
        have hf : f = F.lineno := by simpa using hf
        subst hf
        exact Has.field (f := .lineno) hm
    · exact .col (by simpa using h)
    · exact .endLineno (by simpa using h)
    · exact .endCol (by simpa using h)
    · split at h
      · rename_i f hf
        have hx : f.text = x := by
          have := List.find?_some hf
          simpa using this
        subst hx
        rcases Bool.or_eq_true _ _ ▸ h with h | h
        · obtain ⟨⟨g, v⟩, hm, hg⟩ := List.any_eq_true.1 h
          have hg : g = f := by simpa using hg
          subst hg
          exact .field hm
        · cases c with
          | py k => exact .optional h
          | marker s => cases h
      · cases h
  · intro h
    have gen := fun f hf => has_field c l fs f hf
    generalize ht : Val.node c l fs = t at h
    cases h with
    | lineno h => cases ht; simp [hasattr, h]
    | col h => cases ht; simp [hasattr, h]
    | endLineno h => cases ht; simpa [hasattr] using h
    | endCol h => cases ht; simpa [hasattr] using h
    | field h =>
      cases ht
      refine gen _ ?_
      rw [hasField.eq_def, Bool.or_eq_true]
      exact .inl (List.any_eq_true.2 ⟨_, h, by simp⟩)
    | optional h =>
      cases ht
      refine gen _ ?_
      rw [hasField.eq_def, Bool.or_eq_true]
      exact .inr h

theorem lacking (c : Cls) (l : Loc) (fs : Fields) : ∀ xs : List String,
    Lacking (.node c l fs) xs (xs.filter fun x => !hasattr c l fs x)
  | [] => .nil
  | x :: xs => by
    rw [List.filter_cons]
    cases h : hasattr c l fs x with
    | true =>
      simp only [Bool.not_true, Bool.false_eq_true, if_false]
      exact .has ((has_iff c l fs x).1 h) (lacking c l fs xs)
    | false =>
      simp only [Bool.not_false, if_true]
      exact .lacks (fun hc => by rw [(has_iff c l fs x).2 hc] at h; cases h) (lacking c l fs xs)

theorem lacking_det {t : Val} {xs m m' : List String} (h : Lacking t xs m) (h' : Lacking t xs m') : m = m' := by
  induction h generalizing m' with
  | nil => cases h'; rfl
  | has hx _ ih =>
    cases h' with
    | has _ h' => exact ih h'
    | lacks hn _ => exact absurd hx hn
  | lacks hn _ ih =>
    cases h' with
    | has hx _ => exact absurd hx hn
    | lacks _ h' => rw [ih h']

theorem collects_cons {v : Validator} {i : Nat} {c : Cls} {l : Loc} {fs : Fields} {r : List Val} {its : List Item}
    (h : Collects v (i + 1) r its) : Collects v i (.node c l fs :: r) (v.check i c l fs ++ its) := by
  unfold Validator.check
  cases hi : v.ignore i with
  | true => exact .ignored hi h
  | false =>
    simp only [Bool.false_eq_true, if_false]
    have hl := lacking c l fs v.fields
    generalize v.fields.filter (fun x => !hasattr c l fs x) = m at hl
    cases m with
    | nil => exact .fine hl h
    | cons x m => exact .item hi hl (by simp) h

theorem collects_append {v : Validator} {i : Nat} {a b : List Val} {x y : List Item} (h : Collects v i a x)
    (h' : Collects v (i + a.length) b y) : Collects v i (a ++ b) (x ++ y) := by
  induction h with
  | nil => exact h'
  | @ignored i t r its hi _ ih =>
    exact .ignored hi (ih (by rw [List.length_cons] at h'; rwa [show i + 1 + r.length = i + (r.length + 1) by omega]))
  | @fine i t r its hl _ ih =>
    exact .fine hl (ih (by rw [List.length_cons] at h'; rwa [show i + 1 + r.length = i + (r.length + 1) by omega]))
  | @item i t r its m hi hl hm _ ih =>
    exact .item hi hl hm (ih (by rw [List.length_cons] at h'; rwa [show i + 1 + r.length = i + (r.length + 1) by omega]))

mutual
theorem examine_collects (v : Validator) (i : Nat) : ∀ t : Val, t.isAST = true →
    Collects v i (preorder t) (v.examine i t).1 ∧ (v.examine i t).2 = i + (preorder t).length
  | .const _, h => by cases h
  | .list _, h => by cases h
  | .node c l fs, _ => by
    obtain ⟨h1, h2⟩ := fields_collects v (i + 1) fs
    rw [Validator.examine, preorder]
    refine ⟨collects_cons h1, ?_⟩
    dsimp only
    rw [h2, List.length_cons]
    omega
theorem fields_collects (v : Validator) (i : Nat) : ∀ fs : Fields,
    Collects v i (preorderF fs) (v.fields' i fs).1 ∧ (v.fields' i fs).2 = i + (preorderF fs).length
  | [] => ⟨.nil, rfl⟩
  | (f, .node c l gs) :: r => by
    obtain ⟨h1, h2⟩ := examine_collects v i (.node c l gs) rfl
    obtain ⟨h3, h4⟩ := fields_collects v (v.examine i (.node c l gs)).2 r
    rw [Validator.fields', preorderF]
    dsimp only
    rw [h4, List.length_append]
    rw [h2] at h3 ⊢
    exact ⟨collects_append h1 h3, by omega⟩
  | (f, .list xs) :: r => by
    obtain ⟨h1, h2⟩ := items_collects v i xs
    obtain ⟨h3, h4⟩ := fields_collects v (v.items i xs).2 r
    rw [Validator.fields', preorderF, preorder]
    dsimp only
    rw [h4, List.length_append]
    rw [h2] at h3 ⊢
    exact ⟨collects_append h1 h3, by omega⟩
  | (f, .const _) :: r => by
    rw [Validator.fields', preorderF, preorder, List.nil_append]
    exact fields_collects v i r
theorem items_collects (v : Validator) (i : Nat) : ∀ xs : List Val,
    Collects v i (preorderL xs) (v.items i xs).1 ∧ (v.items i xs).2 = i + (preorderL xs).length
  | [] => ⟨.nil, rfl⟩
  | .node c l gs :: r => by
    obtain ⟨h1, h2⟩ := examine_collects v i (.node c l gs) rfl
    obtain ⟨h3, h4⟩ := items_collects v (v.examine i (.node c l gs)).2 r
    rw [Validator.items, preorderL]
    dsimp only
    rw [h4, List.length_append]
    rw [h2] at h3 ⊢
    exact ⟨collects_append h1 h3, by omega⟩
  | .list _ :: r => by
    rw [Validator.items, preorderL]
    exact items_collects v i r
  | .const _ :: r => by
    rw [Validator.items, preorderL]
    exact items_collects v i r
end

theorem collects_det {v : Validator} {i : Nat} {ts : List Val} {a b : List Item} (h : Collects v i ts a)
    (h' : Collects v i ts b) : a = b := by
  induction h generalizing b with
  | nil => cases h'; rfl
  | ignored hi _ ih =>
    cases h' with
    | ignored _ h' => exact ih h'
    | fine _ h' => exact ih h'
    | item hj _ _ _ => rw [hi] at hj; cases hj
  | fine hl _ ih =>
    cases h' with
    | ignored _ h' => exact ih h'
    | fine _ h' => exact ih h'
    | item _ hl' hm _ => exact absurd (lacking_det hl hl').symm hm
  | item hi hl hm _ ih =>
    cases h' with
    | ignored hj _ => rw [hi] at hj; cases hj
    | fine hl' _ => exact absurd (lacking_det hl hl') hm
    | item _ hl' _ h' => rw [lacking_det hl hl', ih h']

theorem lacking_nil {t : Val} {xs : List String} : Lacking t xs [] ↔ ∀ x ∈ xs, Has t x := by
  constructor
  · intro h
    generalize hm : ([] : List String) = m at h
    induction h with
    | nil => intro x hx; cases hx
    | has hx _ ih =>
      intro y hy
      rcases List.mem_cons.1 hy with rfl | hy
      · exact hx
      · exact ih hm y hy
    | lacks => cases hm
  · intro h
    induction xs with
    | nil => exact .nil
    | cons x xs ih => exact .has (h x (by simp)) (ih fun y hy => h y (by simp [hy]))

theorem collects_nil {v : Validator} {ts : List Val} : ∀ {i : Nat}, Collects v i ts [] ↔
    ∀ j u, ts[j]? = some u → v.ignore (i + j) = true ∨ ∀ x ∈ v.fields, Has u x := by
  induction ts with
  | nil => exact fun {i} => ⟨fun _ j u h => by simp at h, fun _ => .nil⟩
  | cons t ts ih =>
    intro i
    constructor
    · intro h j u hj
      have h2 : (v.ignore i = true ∨ ∀ x ∈ v.fields, Has t x) ∧ Collects v (i + 1) ts [] := by
        cases h with
        | ignored hi h => exact ⟨.inl hi, h⟩
        | fine hl h => exact ⟨.inr (lacking_nil.1 hl), h⟩
      cases j with
      | zero => simp at hj; subst hj; exact h2.1
      | succ j =>
        have := ih.1 h2.2 j u (by simpa using hj)
        rwa [show i + 1 + j = i + (j + 1) by omega] at this
    · intro h
      have h2 : Collects v (i + 1) ts [] := ih.2 fun j u hj => by
        have := h (j + 1) u (by simpa using hj)
        rwa [show i + (j + 1) = i + 1 + j by omega] at this
      rcases h 0 t rfl with h0 | h0
      · exact .ignored h0 h2
      · exact .fine (lacking_nil.2 h0) h2

end Mcpyrate.SourceInfo
