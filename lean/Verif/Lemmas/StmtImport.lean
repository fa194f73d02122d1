import Verif.Lemmas.StmtAssign
/-
Imports.
-/
namespace Mcpyrate.PyText
open Py
open Unparse (Host Large Ctx Prints PrintsL PrintsO lit interleave dispatch fill)

variable {P : Reading} {H : Host}

/-- The tokens of a dotted name. -/
def dottedToks : List String → List Tok
  | [] => []
  | [x] => [.name x]
  | x :: xs => .name x :: .sym .dot :: dottedToks xs

theorem str_nonempty {x : String} (h : ∃ c w, x.toList = c :: w) : Unparse.truthy (.str x) = true := by
  obtain ⟨c, w, e⟩ := h
  have : x ≠ "" := by rintro rfl; exact nomatch e
  simp [Unparse.truthy, FutureImports.truthy, this]

theorem dotted_ok (hP : P.Lawful) : ∀ {xs : List String}, xs ≠ [] → (∀ x ∈ xs, TokOK P (.name x)) →
    Body P (dottedName xs).toList (dottedToks xs) ∧ (∃ c w, (dottedName xs).toList = c :: w ∧ P.start c = true) ∧
    Fin (dottedName xs).toList ∧ (∃ x r, dottedToks xs = .name x :: r) ∧
    ∀ r, (∀ r', r ≠ .sym .dot :: r') → full .dotted (dottedToks xs ++ r) = some (.str (dottedName xs), r)
  | [], h, _ => absurd rfl h
  | [x], _, h => by
    have hx := h x (by simp)
    refine ⟨Body.name hP hx, (name_text hP hx).1, name_fin hP hx, ⟨_, _, rfl⟩, fun r hr => ?_⟩
    rw [full_at]; show pDotted full (.name x :: r) = _
    unfold pDotted
    split
    · rename_i e; cases e; exact absurd rfl (hr _)
    · rename_i e; cases e; rfl
    · rename_i h; exact (h _ _ rfl).elim
  | x :: y :: xs, _, h => by
    have hx := h x (by simp)
    obtain ⟨h1, ⟨c, w, h2, h2'⟩, h3, h4, h5⟩ := dotted_ok hP (xs := y :: xs) (by simp) fun z hz => h z (by simp_all)
    have e : (dottedName (x :: y :: xs)).toList = x.toList ++ '.' :: (dottedName (y :: xs)).toList := by
      simp [dottedName]
    rw [e]
    refine ⟨fun t k rest ht hf => ?_, ?_, h3.cons.pre, ⟨_, _, rfl⟩, fun r hr => ?_⟩
    · have h6 := h1 t k rest ht hf
      rw [h2] at h6 ⊢
      have h7 : Lx P ('.' :: (c :: w ++ t)) (.sym .dot :: (dottedToks (y :: xs) ++ k)) rest :=
        Lx.append (Lx.dot (r := w ++ t ++ rest) h2') h6
      have := Lx.nameThen hP hx h7 (Follow.cons rfl)
      simpa [dottedToks] using this
    · obtain ⟨⟨c, w, e, hc⟩, -⟩ := hx; exact ⟨c, _, by rw [e]; rfl, hc⟩
    · rw [full_at]; show seq (full .dotted (dottedToks (y :: xs) ++ r)) _ = _
      rw [h5 r hr]; rfl

/-- An optional `as x`. -/
theorem as_tail (hP : P.Lawful) {n : Val} (h : OptName P n) : ∃ s ts, Tail P s ts ∧ (∀ t, Fin t → Fin (t ++ s)) ∧
    (Unparse.opt n (fun v => do return lit " as " ++ (← Unparse.write v)) = .ok s) ∧
    (∀ a t r, t ≠ .sym .kAs → asName a (ts ++ t :: r) = some (aliasOf a n, t :: r)) ∧
    ∀ t r, sepEnd t = true → ∀ r', ts ++ t :: r ≠ .sym .dot :: r' := by
  rcases h with rfl | ⟨x, hx, rfl⟩
  · refine ⟨[], [], Tail.nil, fun t h => by simpa using h, rfl, fun a t r ht => ?_, fun t r ht r' => ?_⟩
    · show asName a (t :: r) = _
      unfold asName
      split
      · rename_i e; cases e; exact absurd rfl ht
      · rfl
    · intro e; cases e; exact nomatch ht
  · have hb : Body P (lit "as " ++ x.toList) [.sym .kAs, .name x] := (Body.name hP hx).word hP (k := .kAs) rfl
    refine ⟨lit " as " ++ x.toList, [.sym .kAs, .name x], Tail.cons hb.sp rfl, fun t _ => (name_fin hP hx).pre.pre, ?_,
      fun a t r _ => rfl, fun t r _ r' => by simp⟩
    obtain ⟨⟨c, w, e, -⟩, -⟩ := hx
    unfold Unparse.opt
    rw [if_pos (str_nonempty ⟨c, w, e⟩)]; rfl

theorem prints_alias {x : String} {n : Val} {s} (h : Unparse.opt n (fun v => do return lit " as " ++ (← Unparse.write v)) = .ok s) :
    Prints H (aliasOf (.str x) n) (x.toList ++ s) :=
  (Large.all fun _ => trivial).succ (p := fun _ => True) fun n _ c => by
    show Unparse.alias _ = _
    simp only [Unparse.pure_ok] at h
    have hw : Unparse.write (.str x) = .ok x.toList := rfl
    simp [Unparse.alias, Unparse.attr_here, Unparse.attr_there, Unparse.ok_bind, Unparse.pure_ok, hw, h]

theorem sepEnd_as {t} (h : sepEnd t = true) : t ≠ .sym .kAs := by rintro rfl; exact nomatch h

theorem part_import (hP : P.Lawful) {v} (h : ImportAlias P v) : ∃ s ts, (Prints H v s ∧ Fin s) ∧ SepPart P .importAs v s ts := by
  obtain ⟨xs, n, hne, hx, hn, rfl⟩ := h
  obtain ⟨h1, -, h3, -, h5⟩ := dotted_ok hP hne hx
  obtain ⟨s, ts, g1, g2, g3, g4, g5⟩ := as_tail hP hn
  refine ⟨_, _, ⟨prints_alias g3, g2 _ h3⟩, h1.tail g1, fun t r ht => ?_⟩
  rw [full_at]; show pImportAs full _ = _
  unfold pImportAs
  rw [List.append_assoc, h5 _ (g5 t r ht), seq_some, g4 _ _ _ (sepEnd_as ht)]

theorem part_from (hP : P.Lawful) {v} (h : FromAlias P v) : ∃ s ts, (Prints H v s ∧ Fin s) ∧ SepPart P .fromAs v s ts := by
  obtain ⟨x, n, hx, hn, rfl⟩ := h
  obtain ⟨s, ts, g1, g2, g3, g4, g5⟩ := as_tail hP hn
  refine ⟨_, _, ⟨prints_alias g3, g2 _ (name_fin hP hx)⟩, (Body.name hP hx).tail g1, fun t r ht => ?_⟩
  rw [full_at]; show pFromAs full _ = _
  unfold pFromAs
  have : full .ident (.name x :: (ts ++ t :: r)) = some (.str x, ts ++ t :: r) := by rw [full_at]; rfl
  rw [List.append_assoc, List.singleton_append, this, seq_some, g4 _ _ _ (sepEnd_as ht)]

theorem s_import (hP : P.Lawful) {ns : List Val} (hne : ns ≠ []) (h : ∀ n ∈ ns, ImportAlias P n) : S P H (importOf ns) := by
  obtain ⟨ss, us, h1, h2, h3, h4⟩ := sep_trees hne fun t ht => part_import (H := H) hP (h t ht)
  refine simple_s (s := lit "import " ++ interleave (lit ", ") ss) (h1.succ fun n hn c => ?_) (h3.word hP (k := .kImport) rfl) (lit_beg rfl)
    h2.pre ⟨_, _, rfl, rfl⟩ fun r => ?_
  · show (do Unparse.wordList (dispatch H n) c "import " (← Unparse.attrL .Import _ .names)) = _
    unparsing [Unparse.wordList, hn c, fill_append]
  · rw [full_at, List.cons_append]; show seq (full (.sep .importAs) _) _ = _
    rw [h4 _ _ (.inl rfl)]; rfl

/-! ### `from … import` -/

/-- The tokens of some dots. -/
def dotToks : Nat → List Tok
  | 0 => []
  | 1 => [.sym .dot]
  | 2 => [.sym .dot, .sym .dot]
  | n + 3 => .sym .ellipsis :: dotToks n

/-- What may follow the dots. -/
def DotsEnd (t : Str) : Prop := t.head? ≠ some '.' ∧ t.head?.any isDigit = false

theorem Lx.dot1 {rest : Str} (h : DotsEnd rest) : Lx P ['.'] [.sym .dot] rest := by
  refine Lx.sym rfl rfl rfl (by decide) (by decide) ?_
  show dots rest = _
  unfold dots
  rw [if_neg (by simp [h.1]), if_neg (by simp [h.2])]

theorem Lx.dots : ∀ (n : Nat) {t : Str} {k rest}, Lx P t k rest → DotsEnd (t ++ rest) →
    Lx P (List.replicate n '.' ++ t) (dotToks n ++ k) rest
  | 0, _, _, _, h, _ => h
  | 1, _, _, _, h, hd => Lx.append (Lx.dot1 hd) h
  | 2, t, k, rest, h, hd => by
    have h1 : Lx P ('.' :: t) (.sym .dot :: k) rest := Lx.append (Lx.dot1 hd) h
    refine Lx.append (t1 := ['.']) (k1 := [.sym .dot]) (Lx.sym rfl rfl rfl (by decide) (by decide) ?_) h1
    show PyText.dots ('.' :: (t ++ rest)) = _
    unfold PyText.dots
    have := hd.1
    rw [if_neg (by simp only [List.head?_cons, List.tail_cons, Bool.and_eq_true, decide_eq_true_eq, not_and]; exact fun _ e => this (of_decide_eq_true e)), if_neg (by show ¬ isDigit '.' = true; decide)]; rfl
  | n + 3, t, k, rest, h, hd => by
    have := Lx.append (Lx.ellipsis (P := P)) (Lx.dots n h hd)
    simpa [List.replicate_succ, dotToks] using this

theorem dots_parse : ∀ (n : Nat) {r : List Tok}, (∀ r', r ≠ .sym .dot :: r') → (∀ r', r ≠ .sym .ellipsis :: r') →
    full .dots (dotToks n ++ r) = some (.int n, r)
  | 0, r, h1, h2 => by
    rw [full_at]; show pDots full r = _
    unfold pDots
    split
    · exact absurd rfl (h1 _)
    · exact absurd rfl (h2 _)
    · rfl
  | 1, r, h1, h2 => by
    rw [full_at]; show seq (full .dots r) _ = _
    have := dots_parse 0 h1 h2
    rw [show full .dots r = _ from this]; rfl
  | 2, r, h1, h2 => by
    rw [full_at]; show seq (full .dots (.sym .dot :: r)) _ = _
    have := dots_parse 1 h1 h2
    rw [show full .dots (.sym .dot :: r) = _ from this]; rfl
  | n + 3, r, h1, h2 => by
    rw [full_at]; show seq (full .dots (dotToks n ++ r)) _ = _
    rw [dots_parse n h1 h2, seq_some]
    show some (Val.int (3 + (n : Int)), r) = _
    rw [show (3 + (n : Int)) = ((n + 3 : Nat) : Int) by omega]

/-- What is imported. -/
theorem fromNames_ok (hP : P.Lawful) {ns : List Val} (h : FromNames P ns) : ∃ ss ts, PrintsL H ns ss ∧ Fin (interleave (lit ", ") ss) ∧
    Body P (interleave (lit ", ") ss) ts ∧ ∀ r, fromNames full (ts ++ .newline :: r) = some (.list ns, .newline :: r) := by
  rcases h with rfl | ⟨hne, h⟩
  · refine ⟨["*".toList], [.sym .star], PrintsL.cons (prints_cast (prints_alias (s := []) rfl) (by simp)) PrintsL.nil, ⟨[], '*', rfl, by decide⟩, ?_, fun r => rfl⟩
    intro t k rest ht hf
    exact Lx.star' ht hf.noEq hf.notSlash.2
  · obtain ⟨ss, us, h1, h2, h3, h4⟩ := sep_trees hne fun t ht => part_from (H := H) hP (h t ht)
    refine ⟨ss, us, h1, h2, h3, fun r => ?_⟩
    have h5 := h4 .newline r (.inl rfl)
    unfold fromNames
    split
    · rename_i e
      exfalso
      rw [e, full_at] at h5
      replace h5 : pSep full .fromAs _ = _ := h5
      unfold pSep at h5
      rw [full_at] at h5
      replace h5 : seq (pFromAs full _) _ = _ := h5
      unfold pFromAs at h5
      rw [full_at] at h5
      exact nomatch h5
    · exact h5

theorem fromModule_none {level : Nat} {r : List Tok} (hl : level ≠ 0) :
    fromModule full (.int level) (.sym .kImport :: r) = fromImport full (.int level) .none (.sym .kImport :: r) := by
  unfold fromModule
  cases level with
  | zero => exact absurd rfl hl
  | succ n => rfl

theorem s_importFrom (hP : P.Lawful) {m : Val} {ns : List Val} {level : Nat} (hm : FromModule P m level) (h : FromNames P ns) :
    S P H (importFromOf m ns level) := by
  obtain ⟨ss, ts, h1, h2, h3, h4⟩ := fromNames_ok (H := H) hP h
  have himp : Body P (lit "import " ++ interleave (lit ", ") ss) (.sym .kImport :: ts) := h3.word hP rfl
  have hfrom : ∀ {s us}, Body P s us → Body P (lit "from " ++ s) (.sym .kFrom :: us) := fun h => h.word hP rfl
  have hend : ∀ r lv m, fromImport full lv m (.sym .kImport :: (ts ++ .newline :: r)) =
      some (mk .ImportFrom [(.module_, m), (.names, .list ns), (.level, lv)], .newline :: r) := by
    intro r lv m
    show seq (fromNames full _) _ = _
    rw [h4]; rfl
  rcases hm with ⟨rfl, hl⟩ | ⟨xs, hne, hx, rfl⟩
  · refine simple_s (s := lit "from " ++ (List.replicate level '.' ++ (lit " import " ++ interleave (lit ", ") ss)))
      (ts := .sym .kFrom :: (dotToks level ++ .sym .kImport :: ts)) (h1.succ fun n hn c => ?_) (hfrom fun t k rest ht hf => ?_)
      (lit_beg rfl) h2.pre.pre.pre ⟨_, _, rfl, rfl⟩ fun r => ?_
    · show Unparse.importFrom (dispatch H n) c _ = _
      unparsing [Unparse.importFrom, hn c, fill_append, Unparse.dots, Unparse.opt, Unparse.truthy, FutureImports.truthy]
    · have := Lx.dots level (Lx.sp (himp t k rest ht hf)) ⟨by simp, by show isDigit ' ' = false; decide⟩
      simpa [lit] using this
    · rw [full_at]
      have e : .sym .kFrom :: (dotToks level ++ .sym .kImport :: ts) ++ .newline :: r =
        .sym .kFrom :: (dotToks level ++ .sym .kImport :: (ts ++ .newline :: r)) := by simp
      rw [e]; show seq (full .dots _) _ = _
      rw [dots_parse level (by simp) (by simp), seq_some, fromModule_none hl, hend]; rfl
  · obtain ⟨g1, ⟨c', w, g2, g2'⟩, -, ⟨x, q, g4⟩, g5⟩ := dotted_ok hP hne hx
    refine simple_s (s := lit "from " ++ (List.replicate level '.' ++ ((dottedName xs).toList ++ (lit " import " ++ interleave (lit ", ") ss))))
      (ts := .sym .kFrom :: (dotToks level ++ (dottedToks xs ++ .sym .kImport :: ts))) (h1.succ fun n hn c => ?_) (hfrom fun t k rest ht hf => ?_)
      (lit_beg rfl) h2.pre.pre.pre.pre ⟨_, _, rfl, rfl⟩ fun r => ?_
    · show Unparse.importFrom (dispatch H n) c _ = _
      unparsing [Unparse.importFrom, hn c, fill_append, Unparse.dots, Unparse.opt, str_nonempty ⟨_, _, g2⟩]
    · have h5 := g1.tail (Tail.cons himp.sp rfl) t k rest ht hf
      have := Lx.dots level h5 (by
        rw [List.append_assoc, List.append_assoc, g2, List.cons_append]
        exact start_dots g2')
      simpa [lit] using this
    · rw [full_at]
      have e : .sym .kFrom :: (dotToks level ++ (dottedToks xs ++ .sym .kImport :: ts)) ++ .newline :: r =
        .sym .kFrom :: (dotToks level ++ (dottedToks xs ++ .sym .kImport :: (ts ++ .newline :: r))) := by simp
      rw [e]; show seq (full .dots _) _ = _
      rw [dots_parse level (by rw [g4]; simp) (by rw [g4]; simp), seq_some]
      have h6 := g5 (.sym .kImport :: (ts ++ .newline :: r)) (by simp)
      rw [g4] at h6 ⊢
      show seq (full .dotted _) _ = _
      refine (congrArg (seq · _) h6).trans ?_
      rw [seq_some, hend]; rfl
where
  start_dots {c : Char} {r : Str} (h : P.start c = true) : DotsEnd (c :: r) := by
    have h2 : c ≠ '.' := by rintro rfl; exact Bool.false_ne_true (Eq.trans (by rfl) h)
    refine ⟨by simpa using h2, ?_⟩
    show isDigit c = false
    cases hd : isDigit c with
    | false => rfl
    | true =>
      exfalso
      unfold isDigit at hd
      unfold Reading.start isLetter at h
      simp only [Bool.and_eq_true, Bool.or_eq_true, decide_eq_true_eq] at h hd
      rcases h with ((h | h) | h) | h
      · omega
      · omega
      · subst h; revert hd; decide
      · omega

end Mcpyrate.PyText
