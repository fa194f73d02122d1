import Verif.Lemmas.UnparsePrints
import Verif.Lemmas.UnparseLex
import Verif.Lemmas.PyLevels
import Verif.Spec.ExprTree
/-
Expressions that the unparser writes so that the parser reads them back, wherever they occur.
-/
namespace Mcpyrate.PyText
open Py
open Unparse (Host Prints PrintsL lit interleave isIntConstant)

/-- The tokens that begin what the unparser writes for an expression. -/
def atomStart : Tok → Bool
  | .name _ | .int _ | .float _ | .imag _ | .str .. | .bytes _ => true
  | .sym .kTrue | .sym .kFalse | .sym .kNone | .sym .ellipsis | .sym .lpar | .sym .lbrack | .sym .lbrace => true
  | _ => false

/-- A node for an expression, other than those that only occur in special places. -/
def IsExprNode (v : Val) : Prop := ∃ k fs, v = mk k fs ∧ k.isExpr = true ∧ k ≠ .Starred ∧ k ≠ .Slice

/-- The tree is written as this text, which is read as these tokens, which are parsed as the tree, in all contexts. -/
structure Good (P : Reading) (H : Host) (v : Val) (text : Str) (toks : List Tok) : Prop where intro ::
  prints : Prints H v text
  lexes : ∀ rest, Follow rest → (rest.head? = some '.' → isIntConstant v = false) → Lx P text toks rest
  starts : ∃ c w, text = c :: w ∧ exprStart P c = true
  ends : ∃ w c, text = w ++ [c] ∧ Dialects.isSpace c = false
  head : ∃ t r, toks = t :: r ∧ atomStart t = true
  look : ∀ x t r, toks = .name x :: t :: r → t ≠ .sym .colonEq ∧ t ≠ .sym .eq
  cls : IsExprNode v
  parses : ∀ rest x, full (.primRest v) rest = some x → full .primary (toks ++ rest) = some x

variable {P : Reading} {H : Host}

theorem Good.notStarred {v s ts} (h : Good P H v s ts) : isStarred v = false := by
  obtain ⟨k, fs, rfl, -, hk, -⟩ := h.cls
  simp [isStarred, Val.isK, Ne.symm hk]

theorem Good.notKeyword {v s ts} (h : Good P H v s ts) : v.isK .keyword = false := by
  obtain ⟨k, fs, rfl, hk, -⟩ := h.cls
  have : K.keyword ≠ k := by rintro rfl; exact Bool.noConfusion hk
  simp [Val.isK, this]

theorem Good.truthy {v s ts} (h : Good P H v s ts) : Unparse.truthy v = true := by
  obtain ⟨k, fs, rfl, -⟩ := h.cls; rfl

theorem Good.printsO {v s ts} (h : Good P H v s ts) : Unparse.PrintsO H v (some s) := ⟨h.prints, h.truthy⟩

theorem Good.notNone {v s ts} (h : Good P H v s ts) : v.isNone = false := by
  obtain ⟨k, fs, rfl, -⟩ := h.cls; rfl

theorem atomStart_level {t : Tok} (h : atomStart t = true) : startLevel t = 14 := by
  unfold atomStart at h
  split at h <;> first | rfl | exact nomatch h

theorem Good.startsAt {v s ts} (h : Good P H v s ts) (rest : List Tok) {K : Nat} (hK : K ≤ 14) : StartsAt K (ts ++ rest) := by
  obtain ⟨t, r, rfl, ht⟩ := h.head
  exact ⟨t, r ++ rest, rfl, by rw [atomStart_level ht]; exact hK⟩

theorem Good.primary {v s ts rest} (h : Good P H v s ts) (hr : NoCont 14 rest) : full .primary (ts ++ rest) = some (v, rest) :=
  h.parses rest _ (primRest_stop hr)

/-- The tree is read on every level of precedence. -/
theorem Good.at {v s ts rest} (h : Good P H v s ts) {L : Nat} (hL : L ≤ 14) (hr : NoCont L rest) :
    full (ntAt L) (ts ++ rest) = some (v, rest) :=
  lift (K := 14) (Nat.le_refl _) hL (h.primary (hr.mono hL)) (h.startsAt rest (Nat.le_refl _)) hr

theorem Good.expr {v s ts rest} (h : Good P H v s ts) (hr : NoCont 0 rest) : full .expr (ts ++ rest) = some (v, rest) :=
  h.at (L := 0) (by decide) hr

theorem Good.disj {v s ts rest} (h : Good P H v s ts) (hr : NoCont 1 rest) : full .disj (ts ++ rest) = some (v, rest) :=
  h.at (L := 1) (by decide) hr

theorem Good.bin0 {v s ts rest} (h : Good P H v s ts) (hr : NoCont 5 rest) : full (.bin 0) (ts ++ rest) = some (v, rest) :=
  h.at (L := 5) (by decide) hr

theorem Good.elem {v s ts rest} (h : Good P H v s ts) (hr : NoCont 0 rest) : full .elem (ts ++ rest) = some (v, rest) := by
  rw [full_at]; show pElem full _ = _
  obtain ⟨t, r, e, ht⟩ := h.head
  have := h.expr hr
  subst e
  unfold pElem
  split
  · rename_i e; cases e; exact nomatch ht
  · exact this

/-- The next character is not one that would change the token before. -/
theorem Good.next {v s ts} (h : Good P H v s ts) (rest : Str) {c : Char}
    (hc : c = '=' ∨ c = '*' ∨ c = '>' ∨ c = '/' ∨ c = ':' ∨ c = ' ' ∨ c = '\n') : (s ++ rest).head? ≠ some c := by
  obtain ⟨d, w, rfl, hd⟩ := h.starts
  obtain ⟨h1, h2, h3, h4, h5, h6, h7⟩ := exprStart_ne hd
  intro e
  simp only [List.cons_append, List.head?_cons, Option.some.injEq] at e
  subst e
  rcases hc with rfl | rfl | rfl | rfl | rfl | rfl | rfl <;> contradiction

/-- In front of other text. -/
theorem Good.lx {v s ts} (h : Good P H v s ts) {t : Str} {k} {rest} (ht : Lx P t k rest) (hf : Follow (t ++ rest))
    (hd : (t ++ rest).head? ≠ some '.') : Lx P (s ++ t) (ts ++ k) rest :=
  Lx.append (h.lexes _ hf (fun e => absurd e hd)) ht

/-! ### Atoms -/

/-- What is parsed as an atom. -/
theorem Good.ofAtom {v s ts} (prints : Prints H v s)
    (lexes : ∀ rest, Follow rest → (rest.head? = some '.' → isIntConstant v = false) → Lx P s ts rest)
    (starts : ∃ c w, s = c :: w ∧ exprStart P c = true)
    (ends : ∃ w c, s = w ++ [c] ∧ Dialects.isSpace c = false)
    (head : ∃ t r, ts = t :: r ∧ atomStart t = true)
    (look : ∀ x t r, ts = .name x :: t :: r → t ≠ .sym .colonEq ∧ t ≠ .sym .eq)
    (cls : IsExprNode v)
    (parses : ∀ rest, full .atom (ts ++ rest) = some (v, rest)) : Good P H v s ts where
  prints := prints
  lexes := lexes
  starts := starts
  ends := ends
  head := head
  look := look
  cls := cls
  parses rest x h := by
    rw [full_at]; show pPrimary full _ = _
    unfold pPrimary
    rw [parses, seq_some]; exact h

/-- A single token. -/
theorem Good.ofTok {v s t} (prints : Prints H v s)
    (lexes : ∀ rest, Follow rest → (rest.head? = some '.' → isIntConstant v = false) → Lx P s [t] rest)
    (starts : ∃ c w, s = c :: w ∧ exprStart P c = true)
    (ends : ∃ w c, s = w ++ [c] ∧ Dialects.isSpace c = false)
    (head : atomStart t = true)
    (cls : IsExprNode v)
    (parses : ∀ rest, pAtom full (t :: rest) = some (v, rest)) : Good P H v s [t] :=
  Good.ofAtom prints lexes starts ends ⟨t, [], rfl, head⟩ (fun _ _ _ e => nomatch e) cls
    (fun rest => by rw [full_at]; exact parses rest)

theorem digit_noSpace {c : Char} (h : isDigit c = true) : Dialects.isSpace c = false := by
  unfold isDigit at h
  unfold Dialects.isSpace
  simp only [Bool.and_eq_true, decide_eq_true_eq] at h
  simp only [Bool.or_eq_false_iff, Bool.and_eq_false_iff, decide_eq_false_iff_not, beq_eq_false_iff_ne]
  omega

theorem letter_noSpace {c : Char} (h : isLetter c = true) : Dialects.isSpace c = false := by
  unfold isLetter at h
  simp only [Bool.or_eq_true, Bool.and_eq_true, decide_eq_true_eq] at h
  rcases h with h | rfl
  · unfold Dialects.isSpace
    simp only [Bool.or_eq_false_iff, Bool.and_eq_false_iff, decide_eq_false_iff_not, beq_eq_false_iff_ne]
    omega
  · decide

theorem cont_noSpace (hP : P.Lawful) {c : Char} (h : P.cont c = true) : Dialects.isSpace c = false := by
  unfold Reading.cont at h
  simp only [Bool.or_eq_true, Bool.and_eq_true, decide_eq_true_eq] at h
  rcases h with (h | h) | ⟨-, h⟩
  · exact letter_noSpace h
  · exact digit_noSpace h
  · exact hP.noSpace c h

theorem last_of {s : Str} (hne : s ≠ []) (h : ∀ c ∈ s, Dialects.isSpace c = false) :
    ∃ w c, s = w ++ [c] ∧ Dialects.isSpace c = false :=
  ⟨s.dropLast, s.getLast hne, (List.dropLast_concat_getLast hne).symm, h _ (List.getLast_mem hne)⟩

/-- The text of a name. -/
theorem name_text (hP : P.Lawful) {x : String} (h : TokOK P (.name x)) :
    (∃ c w, x.toList = c :: w ∧ P.start c = true) ∧ (∃ w c, x.toList = w ++ [c] ∧ Dialects.isSpace c = false) := by
  obtain ⟨⟨c, w, e, hc⟩, hw, -⟩ := h
  exact ⟨⟨c, w, e, hc⟩, last_of (by rw [e]; exact List.cons_ne_nil _ _) fun d hd => cont_noSpace hP (hw d hd)⟩

theorem good_name (hP : P.Lawful) {x : String} (h : TokOK P (.name x)) : Good P H (name x) x.toList [.name x] := by
  obtain ⟨⟨c, w, e, hc⟩, he⟩ := name_text hP h
  exact Good.ofTok Prints.name (fun rest hr _ => Lx.name hP h hr.cont hr.quote) ⟨c, w, e, exprStart_start hc⟩ he rfl
    ⟨.Name, _, rfl, rfl, by decide, by decide⟩ fun _ => rfl

/-- A numeral has no letter `i`. -/
theorem replaceInf_id : ∀ {s : Str}, (∀ c ∈ s, c ≠ 'i') → Unparse.replaceInf s = s
  | [], _ => rfl
  | c :: s, h => by
    unfold Unparse.replaceInf
    split
    · rename_i e
      cases e
      exact absurd rfl (h 'i' (by simp))
    · rename_i e
      cases e
      rw [replaceInf_id fun d hd => h d (by simp [hd])]
    · rename_i e; exact nomatch e

theorem digit_ne {c d : Char} (h : isDigit c = true) (hd : isDigit d = false) : c ≠ d := by
  rintro rfl; rw [h] at hd; exact nomatch hd

theorem Digits.noI {s : Str} (h : ∀ c ∈ s, isDigit c = true) : ∀ c ∈ s, c ≠ 'i' := fun c hc => digit_ne (h c hc) rfl

theorem Numeral.chars {s : Str} (h : Numeral s) : ∀ c ∈ s, isDigit c = true ∨ c = '.' ∨ c = 'e' ∨ c = '+' ∨ c = '-' := by
  obtain ⟨ds, fr, ex, rfl, hd, hf, he⟩ := h
  intro c hc
  simp only [List.mem_append] at hc
  rcases hc with (hc | hc) | hc
  · exact .inl (hd.2 c hc)
  · rcases hf with rfl | ⟨ds, rfl, hds⟩
    · exact nomatch hc
    · simp only [List.mem_cons] at hc
      rcases hc with rfl | hc
      · simp
      · exact .inl (hds c hc)
  · rcases he with rfl | ⟨sign, ds, rfl, hs, hds⟩
    · exact nomatch hc
    · simp only [List.cons_append, List.mem_cons, List.mem_append] at hc
      rcases hc with rfl | hc | hc
      · simp
      · rcases hs with rfl | rfl | rfl <;> simp_all
      · exact .inl (hds.2 c hc)

theorem Numeral.noI {s : Str} (h : Numeral s) : ∀ c ∈ s, c ≠ 'i' := by
  intro c hc
  rcases h.chars c hc with h | rfl | rfl | rfl | rfl
  · exact digit_ne h rfl
  all_goals decide

theorem Numeral.noSpace {s : Str} (h : Numeral s) : ∀ c ∈ s, Dialects.isSpace c = false := by
  intro c hc
  rcases h.chars c hc with h | rfl | rfl | rfl | rfl
  · exact digit_noSpace h
  all_goals decide

theorem Numeral.starts {s : Str} (h : Numeral s) : ∃ c w, s = c :: w ∧ exprStart P c = true := by
  obtain ⟨ds, fr, ex, rfl, ⟨hne, hd⟩, -⟩ := h
  cases ds with
  | nil => exact absurd rfl hne
  | cons c w => exact ⟨c, _, rfl, by simp [exprStart, hd c (by simp)]⟩

theorem Numeral.ends {s : Str} (h : Numeral s) : ∃ w c, s = w ++ [c] ∧ Dialects.isSpace c = false :=
  last_of (by obtain ⟨c, w, e, -⟩ := h.starts (P := ⟨fun _ => false, fun _ => false, fun _ => "", fun _ => ""⟩); simp [e]) h.noSpace

theorem Digits.numeral {s : Str} (h : Digits s) : Numeral s := ⟨s, [], [], by simp, h, .inl rfl, .inl rfl⟩

theorem cls_constant {fs} : IsExprNode (mk .Constant fs) := ⟨.Constant, fs, rfl, rfl, by decide, by decide⟩

theorem good_int {n : Nat} : Good P H (constant (.int n)) (Unparse.decimal n) [.int n] := by
  have hd := (decimal_ok n).1
  refine Good.ofTok (Prints.constant ?_) (fun rest hr hi => Lx.int hr fun e => Bool.noConfusion (hi e)) hd.numeral.starts
    hd.numeral.ends rfl cls_constant fun _ => rfl
  show Except.ok ([] ++ Unparse.replaceInf (Unparse.decimal n)) = _
  rw [replaceInf_id (Digits.noI hd.2)]; rfl

theorem oneE309 : Numeral "1e309".toList ∧ ¬ Integral "1e309".toList :=
  ⟨⟨['1'], [], ['e', '3', '0', '9'], rfl, ⟨by decide, by decide⟩, .inl rfl,
    .inr ⟨[], ['3', '0', '9'], rfl, .inl rfl, by decide, by decide⟩⟩, fun h => absurd (h 'e' (by decide)) (by decide)⟩

theorem good_float (hP : P.Lawful) {r : String} (h : TokOK P (.float r)) : ∃ s, Good P H (constant (.float r)) s [.float r] := by
  obtain ⟨s, hs, rfl⟩ := h
  rcases hP.float s hs with ⟨h1, h2, h3⟩ | ⟨h1, h2⟩
  · refine ⟨(P.float s).toList, Good.ofTok (Prints.constant ?_) (fun rest hr _ => ?_) h1.starts h1.ends rfl cls_constant fun _ => rfl⟩
    · show Except.ok ([] ++ Unparse.replaceInf (P.float s).toList) = _
      rw [replaceInf_id h1.noI]; rfl
    · have := Lx.float (P := P) h1 h2 hr
      rwa [h3] at this
  · rw [h1]
    refine ⟨"1e309".toList, Good.ofTok (Prints.constant rfl) (fun rest hr _ => ?_) oneE309.1.starts oneE309.1.ends rfl cls_constant fun _ => rfl⟩
    have := Lx.float (P := P) oneE309.1 oneE309.2 hr
    rwa [h2] at this

theorem Numeral.j {s : Str} (h : Numeral s) : (∃ c w, s ++ ['j'] = c :: w ∧ exprStart P c = true) ∧
    ∃ w c, s ++ ['j'] = w ++ [c] ∧ Dialects.isSpace c = false := by
  obtain ⟨c, w, rfl, hc⟩ := h.starts (P := P)
  exact ⟨⟨c, w ++ ['j'], rfl, hc⟩, _, _, rfl, by decide⟩

theorem good_imag (hP : P.Lawful) {r : String} (h : TokOK P (.imag r)) : ∃ s, Good P H (constant (.complex r)) s [.imag r] := by
  obtain ⟨s, hs, rfl⟩ := h
  rcases hP.imag s hs with ⟨s', e, h1, h3⟩ | ⟨h1, h2⟩
  · refine ⟨s' ++ ['j'], Good.ofTok (Prints.constant ?_) (fun rest hr _ => ?_) h1.j.1 (h1.j (P := P)).2 rfl cls_constant fun _ => rfl⟩
    · show Except.ok ([] ++ Unparse.replaceInf (P.imag s).toList) = _
      rw [e, replaceInf_id]
      · rfl
      · intro c hc
        simp only [List.mem_append, List.mem_singleton] at hc
        rcases hc with hc | rfl
        · exact h1.noI c hc
        · decide
    · have := Lx.imag (P := P) h1 hr
      rwa [h3] at this
  · rw [h1]
    refine ⟨"1e309".toList ++ ['j'], Good.ofTok (Prints.constant rfl) (fun rest hr _ => ?_) oneE309.1.j.1 (oneE309.1.j (P := P)).2 rfl cls_constant fun _ => rfl⟩
    have := Lx.imag (P := P) oneE309.1 hr
    rwa [h2] at this

theorem quote_start {q : Char} (h : q = '\'' ∨ q = '"') : exprStart P q = true ∧ Dialects.isSpace q = false := by
  rcases h with rfl | rfl
  · exact ⟨by simp [exprStart], by decide⟩
  · exact ⟨by simp [exprStart], by decide⟩

theorem reprStr_ends (s : Str) : ∃ q w, (q = '\'' ∨ q = '"') ∧ Unparse.reprStr H s = q :: w ++ [q] :=
  ⟨_, _, quoteFor_cases _ _, rfl⟩

theorem good_str {u : Bool} {x : String} : ∃ s, Good P H (constantU u x) s [.str u x] := by
  obtain ⟨q, w, hq, e⟩ := reprStr_ends (H := H) x.toList
  cases u with
  | false =>
    refine ⟨Unparse.reprStr H x.toList, Good.ofTok (Prints.constant rfl) (fun rest hr _ => Lx.str hr) ?_ ?_ rfl cls_constant fun _ => rfl⟩
    · exact ⟨q, w ++ [q], by rw [e]; rfl, (quote_start hq).1⟩
    · exact ⟨q :: w, q, e, (quote_start (P := P) hq).2⟩
  | true =>
    refine ⟨'u' :: Unparse.reprStr H x.toList, Good.ofTok (Prints.constant rfl) (fun rest hr _ => Lx.ustr hr) ?_ ?_ rfl cls_constant fun _ => rfl⟩
    · exact ⟨'u', _, rfl, exprStart_start rfl⟩
    · exact ⟨'u' :: q :: w, q, by rw [e]; rfl, (quote_start (P := P) hq).2⟩

theorem good_bytes {b : List Nat} (h : TokOK P (.bytes b)) : ∃ s, Good P H (constant (.bytes b)) s [.bytes b] := by
  refine ⟨Unparse.reprBytes b, Good.ofTok (Prints.constant rfl) (fun rest hr _ => Lx.bytes h hr) ?_ ?_ rfl cls_constant fun _ => rfl⟩
  · exact ⟨'b', _, rfl, exprStart_start rfl⟩
  · exact ⟨_, _, rfl, (quote_start (P := P) (quoteFor_cases _ _)).2⟩

theorem good_true (hP : P.Lawful) : Good P H (constant (.bool true)) (lit "True") [.sym .kTrue] :=
  Good.ofTok (Prints.constant rfl) (fun _ hr _ => Lx.kTrue hP Lx.nil hr) ⟨'T', _, rfl, exprStart_start rfl⟩
    ⟨['T', 'r', 'u'], 'e', rfl, by decide⟩ rfl cls_constant fun _ => rfl

theorem good_false (hP : P.Lawful) : Good P H (constant (.bool false)) (lit "False") [.sym .kFalse] :=
  Good.ofTok (Prints.constant rfl) (fun _ hr _ => Lx.kFalse hP Lx.nil hr) ⟨'F', _, rfl, exprStart_start rfl⟩
    ⟨['F', 'a', 'l', 's'], 'e', rfl, by decide⟩ rfl cls_constant fun _ => rfl

theorem good_none (hP : P.Lawful) : Good P H (constant .none) (lit "None") [.sym .kNone] :=
  Good.ofTok (Prints.constant rfl) (fun _ hr _ => Lx.kNone hP Lx.nil hr) ⟨'N', _, rfl, exprStart_start rfl⟩
    ⟨['N', 'o', 'n'], 'e', rfl, by decide⟩ rfl cls_constant fun _ => rfl

theorem good_ellipsis : Good P H (constant .ellipsis) (lit "...") [.sym .ellipsis] :=
  Good.ofTok (Prints.constant rfl) (fun _ _ _ => Lx.ellipsis) ⟨'.', _, rfl, by simp [exprStart]⟩
    ⟨['.', '.'], '.', rfl, by decide⟩ rfl cls_constant fun _ => rfl

end Mcpyrate.PyText
