import Verif.Lemmas.StmtGood
import Verif.Spec.StmtTree
import Verif.Lemmas.UnparseText
/-
Simple statements.
-/
namespace Mcpyrate.PyText
open Py
open Unparse (Host Large Ctx Prints PrintsL PrintsO lit interleave dispatch fill)

variable {P : Reading} {H : Host}

/-! ### Words and ends of lines -/

/-- The last character is not white space. -/
def Fin (s : Str) : Prop := ∃ w c, s = w ++ [c] ∧ Dialects.isSpace c = false

theorem Fin.pre {s t} (h : Fin s) : Fin (t ++ s) := by
  obtain ⟨w, c, rfl, hc⟩ := h; exact ⟨t ++ w, c, by simp, hc⟩
theorem Fin.cons {s c} (h : Fin s) : Fin (c :: s) := h.pre (t := [c])
theorem Good.fin {v s ts} (g : Good P H v s ts) : Fin s := g.ends
theorem name_fin (hP : P.Lawful) {x : String} (h : TokOK P (.name x)) : Fin x.toList := (name_text hP h).2

/-- The first character is not white space. -/
def Beg (s : Str) : Prop := ∃ c r, s = c :: r ∧ Dialects.isSpace c = false
theorem Beg.app {s t} (h : Beg s) : Beg (s ++ t) := by obtain ⟨c, r, rfl, hc⟩ := h; exact ⟨c, r ++ t, rfl, hc⟩

/-- A keyword and a space. -/
def isWord (x : String) (k : Sym) : Bool :=
  match x.toList with
  | c :: w => isLetter c && w.dropLast.all isLetter && w.getLast? == some ' ' && keyword? (String.ofList (c :: w.dropLast)) == some k
  | [] => false

theorem Body.word (hP : P.Lawful) {x : String} {k s ts} (hx : isWord x k = true) (h : Body P s ts) : Body P (lit x ++ s) (.sym k :: ts) := by
  unfold isWord at hx
  unfold lit
  cases hl : x.toList with
  | nil => rw [hl] at hx; exact nomatch hx
  | cons c w =>
    rw [hl] at hx
    simp only [Bool.and_eq_true, beq_iff_eq] at hx
    obtain ⟨⟨⟨h1, h2⟩, h3⟩, h4⟩ := hx
    have e : w = w.dropLast ++ [' '] := by
      have hne : w ≠ [] := by rintro rfl; exact nomatch h3
      rw [List.getLast?_eq_some_getLast hne, Option.some.injEq] at h3
      rw [← h3]; exact (List.dropLast_concat_getLast hne).symm
    intro t q rest ht hf
    have := Lx.kw hP (Lx.sp (h t q rest ht hf)) h4 (by simp [Reading.start, h1])
      (by rw [List.all_eq_true] at h2 ⊢; intro d hd; simp [Reading.cont, h2 d hd]) (Follow.cons rfl)
    rw [e]
    simpa using this

theorem Body.keyword (hP : P.Lawful) {c : Char} {w : Str} {s} (hk : keyword? (String.ofList (c :: w)) = some s)
    (hc : isLetter c = true) (hw : w.all isLetter = true) : Body P (c :: w) [.sym s] := fun t q rest ht hf =>
  Lx.kw hP ht hk (by simp [Reading.start, hc]) (by rw [List.all_eq_true] at hw ⊢; intro d hd; simp [Reading.cont, hw d hd]) hf.follow

theorem Body.sp {s ts} (h : Body P s ts) : Body P (' ' :: s) ts := fun t k rest ht hf => Lx.sp (h t k rest ht hf)

theorem Body.name (hP : P.Lawful) {x : String} (h : TokOK P (.name x)) : Body P x.toList [.name x] :=
  (good_name (H := ⟨fun _ => true⟩) hP h).body

theorem fill_append {c : Ctx} {s t : Str} : fill c s ++ t = fill c (s ++ t) := by simp [fill]

/-! ### Lists without brackets -/

/-- What follows an item. -/
def sepEnd : Tok → Bool
  | .sym .comma | .newline | .sym .colon => true
  | _ => false

theorem sepEnd_cont {t L r} (h : sepEnd t = true) : NoCont L (t :: r) := by
  refine NoCont.none ?_
  unfold sepEnd at h
  split at h <;> first | rfl | exact nomatch h

structure SepPart (P : Reading) (nt : NT) (v : Val) (s : Str) (ts : List Tok) : Prop where
  body : Body P s ts
  parses : ∀ t r, sepEnd t = true → full nt (ts ++ t :: r) = some (v, t :: r)

theorem interleave_two {sep x y : Str} {ys} : interleave sep (x :: y :: ys) = x ++ (sep ++ interleave sep (y :: ys)) := by
  rw [interleave_cons, interleave_cons, List.flatMap_cons]; simp

def interleaveT : List (List Tok) → List Tok
  | [] => []
  | [x] => x
  | x :: y :: xs => x ++ .sym .comma :: interleaveT (y :: xs)

theorem sep_of {nt} : ∀ {ps : List (Val × Str × List Tok)}, ps ≠ [] → (∀ p ∈ ps, SepPart P nt p.1 p.2.1 p.2.2) →
    Body P (interleave (lit ", ") (ps.map (·.2.1))) (interleaveT (ps.map (·.2.2))) ∧
    ∀ t r, t = .newline ∨ t = .sym .colon → full (.sep nt) (interleaveT (ps.map (·.2.2)) ++ t :: r) = some (.list (ps.map (·.1)), t :: r)
  | [], h, _ => absurd rfl h
  | [p], _, h => by
    have hp := h p (by simp)
    refine ⟨by simpa [interleave, interleaveT] using hp.body, fun t r ht => ?_⟩
    rw [full_at]; show pSep full nt _ = _
    unfold pSep
    have h1 := hp.parses t r (by rcases ht with rfl | rfl <;> rfl)
    simp only [List.map_cons, List.map_nil, interleaveT]
    rw [h1, seq_some]
    rcases ht with rfl | rfl <;> rfl
  | p :: q :: ps, _, h => by
    have hp := h p (by simp)
    obtain ⟨hb, hq⟩ := sep_of (ps := q :: ps) (by simp) fun x hx => h x (by simp_all)
    refine ⟨?_, fun t r ht => ?_⟩
    · simp only [List.map_cons, interleave_two, interleaveT] at hb ⊢
      refine hp.body.tail (Tail.cons (c := ',') (s := ' ' :: interleave (lit ", ") (q.2.1 :: ps.map (·.2.1))) (fun t k rest ht hf => ?_) rfl)
      exact Lx.comma' (Lx.sp (hb t k rest ht hf))
    · have h2 := hq t r ht
      have h1 := hp.parses (.sym .comma) (interleaveT ((q :: ps).map (·.2.2)) ++ t :: r) rfl
      rw [full_at]; show pSep full nt _ = _
      unfold pSep
      have e : interleaveT ((p :: q :: ps).map (·.2.2)) ++ t :: r =
          p.2.2 ++ .sym .comma :: (interleaveT ((q :: ps).map (·.2.2)) ++ t :: r) := by
        simp [interleaveT]
      rw [e, h1, seq_some]
      show seq (full (.sep nt) _) _ = _
      rw [h2]; rfl

theorem interleave_fin : ∀ {ss : List Str}, ss ≠ [] → (∀ s ∈ ss, Fin s) → Fin (interleave (lit ", ") ss)
  | [], h, _ => absurd rfl h
  | [s], _, h => by simpa [interleave] using h s (by simp)
  | s :: t :: ss, _, h => by
    rw [interleave_two]
    exact (interleave_fin (ss := t :: ss) (by simp) fun x hx => h x (by simp_all)).pre.pre

theorem parts_of {nt} {Q : Val → Str → Prop} : ∀ {vs : List Val}, (∀ v ∈ vs, ∃ s ts, Q v s ∧ SepPart P nt v s ts) →
    ∃ ps : List (Val × Str × List Tok), ps.map (·.1) = vs ∧ (∀ p ∈ ps, Q p.1 p.2.1) ∧ ∀ p ∈ ps, SepPart P nt p.1 p.2.1 p.2.2
  | [], _ => ⟨[], rfl, by simp, by simp⟩
  | v :: vs, h => by
    obtain ⟨s, ts, h1, h2⟩ := h v (by simp)
    obtain ⟨ps, h3, h4, h5⟩ := parts_of (vs := vs) fun x hx => h x (by simp [hx])
    refine ⟨(v, s, ts) :: ps, by simp [h3], ?_, ?_⟩
    · intro p hp
      rcases List.mem_cons.1 hp with rfl | hp
      · exact h1
      · exact h4 p hp
    · intro p hp
      rcases List.mem_cons.1 hp with rfl | hp
      · exact h2
      · exact h5 p hp

theorem printsL_parts : ∀ {ps : List (Val × Str × List Tok)}, (∀ p ∈ ps, Prints H p.1 p.2.1) → PrintsL H (ps.map (·.1)) (ps.map (·.2.1))
  | [], _ => PrintsL.nil
  | p :: ps, h => PrintsL.cons (h p (by simp)) (printsL_parts fun x hx => h x (by simp [hx]))

/-- A list of items that are trees. -/
theorem sep_trees {nt} {vs : List Val} (hne : vs ≠ []) (h : ∀ v ∈ vs, ∃ s ts, (Prints H v s ∧ Fin s) ∧ SepPart P nt v s ts) :
    ∃ ss ts, PrintsL H vs ss ∧ Fin (interleave (lit ", ") ss) ∧ Body P (interleave (lit ", ") ss) ts ∧
      ∀ t r, t = .newline ∨ t = .sym .colon → full (.sep nt) (ts ++ t :: r) = some (.list vs, t :: r) := by
  obtain ⟨ps, rfl, h1, h2⟩ := parts_of h
  have hne' : ps ≠ [] := by rintro rfl; exact hne rfl
  obtain ⟨h3, h4⟩ := sep_of hne' h2
  refine ⟨_, _, printsL_parts fun p hp => (h1 p hp).1, interleave_fin (by simpa using hne') ?_, h3, h4⟩
  intro s hs
  obtain ⟨p, hp, rfl⟩ := List.mem_map.1 hs
  exact (h1 p hp).2

/-! ### Expressions, `pass`, `return`, … -/

/-- The tokens at the beginning of an expression or `*a` do not begin another statement. -/
theorem elemTok_simple {t : Tok} (h : atomStart t = true ∨ t = .sym .star) : simpleTok t = true := by
  rcases h with h | rfl
  · unfold atomStart at h
    split at h <;> first | rfl | exact nomatch h
  · rfl

theorem simple_elem {t : Tok} {r} (h : atomStart t = true ∨ t = .sym .star) :
    full .simple (t :: r) = seq (full .elem (t :: r)) (simpleRest full (t :: r)) := by
  rw [full_at]; show pSimple full _ = _
  unfold pSimple
  split
  all_goals first
    | rfl
    | (rename_i e; cases e; rcases h with h | h <;> exact nomatch h)

theorem Good.beg (hP : P.Lawful) {v s ts} (g : Good P H v s ts) : Beg s := by
  obtain ⟨c, w, rfl, h⟩ := g.starts; exact ⟨c, w, rfl, exprStart_noSpace hP h⟩

theorem s_expr (hP : P.Lawful) {v} (h : G P H v) : S P H (exprOf v) := by
  obtain ⟨s, ts, g⟩ := h
  obtain ⟨t, r', e, ht⟩ := g.head
  refine simple_s (g.prints.succ fun n hn c => ?_) g.body (g.beg hP) g.ends ⟨t, r', e, elemTok_simple (.inl ht)⟩ fun r => ?_
  · show Unparse.exprStmt (dispatch H n) c _ = _
    unparsing [Unparse.exprStmt, hn c, fill_append]
  · have := g.elem (rest := .newline :: r) (NoCont.none rfl)
    subst e
    rw [List.cons_append] at this ⊢
    rw [simple_elem (.inl ht), this, seq_some]
    show (if _ then _ else _) = _
    rw [g.notStarred]; rfl

theorem prints_const {v : Val} {s} (h : ∀ n c, dispatch H (n + 1) c v = .ok (fill c s)) :
    Large fun n => ∀ c, dispatch H n c v = .ok (fill c s) :=
  (Large.all fun _ => trivial).succ (p := fun _ => True) fun n _ c => h n c

theorem s_pass (hP : P.Lawful) : S P H (mk .Pass []) :=
  simple_s (s := lit "pass") (prints_const fun _ _ => rfl) (Body.keyword hP (c := 'p') (w := ['a', 's', 's']) rfl rfl rfl) ⟨_, _, rfl, by decide⟩
    ⟨['p', 'a', 's'], 's', rfl, by decide⟩ ⟨_, _, rfl, rfl⟩ fun r => by rw [full_at]; rfl

theorem s_break (hP : P.Lawful) : S P H (mk .Break []) :=
  simple_s (s := lit "break") (prints_const fun _ _ => rfl) (Body.keyword hP (c := 'b') (w := ['r', 'e', 'a', 'k']) rfl rfl rfl) ⟨_, _, rfl, by decide⟩
    ⟨['b', 'r', 'e', 'a'], 'k', rfl, by decide⟩ ⟨_, _, rfl, rfl⟩ fun r => by rw [full_at]; rfl

theorem s_continue (hP : P.Lawful) : S P H (mk .Continue []) :=
  simple_s (s := lit "continue") (prints_const fun _ _ => rfl)
    (Body.keyword hP (c := 'c') (w := ['o', 'n', 't', 'i', 'n', 'u', 'e']) rfl rfl rfl) ⟨_, _, rfl, by decide⟩
    ⟨['c', 'o', 'n', 't', 'i', 'n', 'u'], 'e', rfl, by decide⟩ ⟨_, _, rfl, rfl⟩ fun r => by rw [full_at]; rfl

theorem lit_beg {x : String} {s : Str} (h : (x.toList.head?.any fun c => !Dialects.isSpace c) = true) : Beg (lit x ++ s) := by
  unfold lit
  cases e : x.toList with
  | nil => rw [e] at h; exact nomatch h
  | cons c w => rw [e] at h; exact ⟨c, w ++ s, rfl, by simpa using h⟩

theorem atomStart_newline {t : Tok} (h : atomStart t = true) : t ≠ .newline := by rintro rfl; exact nomatch h

theorem simple_return {t r} (h : t ≠ .newline) :
    full .simple (.sym .kReturn :: t :: r) = seq (full .expr (t :: r)) fun v r => some (returnOf v, r) := by
  rw [full_at]
  cases t <;> first | rfl | exact absurd rfl h

theorem simple_raise {t r} (h : t ≠ .newline) :
    full .simple (.sym .kRaise :: t :: r) = seq (full .expr (t :: r)) (raiseFrom full) := by
  rw [full_at]
  cases t <;> first | rfl | exact absurd rfl h

theorem s_return (hP : P.Lawful) {v} (h : OptG P H v) : S P H (returnOf v) := by
  rcases h with rfl | ⟨s, ts, g⟩
  · refine simple_s (s := lit "return") (prints_const fun n c => ?_)
      (Body.keyword hP (c := 'r') (w := ['e', 't', 'u', 'r', 'n']) rfl rfl rfl) ⟨_, _, rfl, by decide⟩
      ⟨['r', 'e', 't', 'u', 'r'], 'n', rfl, by decide⟩ ⟨_, _, rfl, rfl⟩ fun r => by rw [full_at]; rfl
    show Unparse.returnStmt (dispatch H n) c _ = _
    unparsing [Unparse.returnStmt, Unparse.opt, Unparse.truthy, FutureImports.truthy]
  · refine simple_s (s := lit "return " ++ s) (g.prints.succ fun n hn c => ?_) (g.body.word hP (k := .kReturn) rfl) (lit_beg rfl) g.fin.pre
      ⟨_, _, rfl, rfl⟩ fun r => ?_
    · show Unparse.returnStmt (dispatch H n) c _ = _
      unparsing [Unparse.returnStmt, Unparse.opt, g.truthy, hn c, fill_append, lit]
    · have := g.expr (rest := .newline :: r) (NoCont.none rfl)
      obtain ⟨t, q, rfl, ht⟩ := g.head
      rw [List.cons_append] at this
      rw [List.cons_append, List.cons_append, simple_return (atomStart_newline ht), this]; rfl

/-! ### `assert`, `raise` -/

theorem optText {v o} (h : PrintsO H v o) (x : String) : Large fun n => ∀ c,
    Unparse.opt v (fun v => do return lit x ++ (← dispatch H n c v)) = .ok ((o.map (lit x ++ ·)).getD []) := h.optWith _

/-- An optional expression after a word or sign. -/
theorem opt_tail {v : Val} (h : OptG P H v) {x : String} {sy : Sym} (hx : ∃ w, x.toList = ' ' :: w ∨ x.toList = ',' :: w)
    (hl : ∀ {s ts}, Body P s ts → Body P (lit x ++ s) (.sym sy :: ts)) :
    ∃ o ts, PrintsO H v o ∧ Tail P ((o.map (lit x ++ ·)).getD []) ts ∧ (∀ s, Fin s → Fin (s ++ (o.map (lit x ++ ·)).getD [])) ∧
      ((v = .none ∧ ts = []) ∨ ∃ us, ts = .sym sy :: us ∧ ∀ r, NoCont 0 r → full .expr (us ++ r) = some (v, r)) := by
  rcases h with rfl | ⟨s, ts, g⟩
  · exact ⟨none, [], rfl, Tail.nil, fun s h => by simpa using h, .inl ⟨rfl, rfl⟩⟩
  · refine ⟨some s, .sym sy :: ts, g.printsO, ⟨hl g.body, fun t _ => ?_⟩, fun t _ => g.fin.pre.pre, .inr ⟨ts, rfl, fun r hr => g.expr hr⟩⟩
    obtain ⟨w, e | e⟩ := hx
    · show After (lit x ++ s ++ t); unfold lit; rw [e]; exact After.cons rfl
    · show After (lit x ++ s ++ t); unfold lit; rw [e]; exact After.cons rfl

theorem s_assert (hP : P.Lawful) {a b} (ha : G P H a) (hb : OptG P H b) : S P H (assertOf a b) := by
  obtain ⟨s, ts, g⟩ := ha
  obtain ⟨o, us, ho, ht, hfin, hp⟩ := opt_tail (x := ", ") (sy := .comma) hb ⟨[' '], .inr rfl⟩
    (fun h t k rest ht hf => Lx.comma' (Lx.sp (h t k rest ht hf)))
  refine simple_s (s := lit "assert " ++ (s ++ (o.map (lit ", " ++ ·)).getD []))
    ((g.prints.and (optText ho ", ")).succ fun n ⟨h1, h2⟩ c => ?_) ((g.body.tail ht).word hP (k := .kAssert) rfl) (lit_beg rfl)
    (hfin _ g.fin).pre ⟨_, _, rfl, rfl⟩ fun r => ?_
  · show Unparse.assertStmt (dispatch H n) c _ = _
    have h2 := h2 c
    simp only [Unparse.pure_ok] at h2
    unparsing [Unparse.assertStmt, h1 c, h2, fill_append]
  · rw [full_at, List.cons_append, List.append_assoc]; show seq (full .expr _) _ = _
    rcases hp with ⟨rfl, rfl⟩ | ⟨us, rfl, hp⟩
    · rw [List.nil_append, g.expr (NoCont.none rfl)]; rfl
    · rw [List.cons_append, g.expr (NoCont.none rfl), seq_some]
      show seq (full .expr _) _ = _
      rw [hp _ (NoCont.none rfl)]; rfl

theorem s_reraise (hP : P.Lawful) : S P H (raiseOf .none .none) :=
  simple_s (s := lit "raise") (prints_const fun n c => by
      show Unparse.raiseStmt (dispatch H n) c _ = _
      unparsing [Unparse.raiseStmt, Unparse.truthy, FutureImports.truthy])
    (Body.keyword hP (c := 'r') (w := ['a', 'i', 's', 'e']) rfl rfl rfl) ⟨_, _, rfl, by decide⟩
    ⟨['r', 'a', 'i', 's'], 'e', rfl, by decide⟩ ⟨_, _, rfl, rfl⟩ fun r => by rw [full_at]; rfl

theorem s_raise (hP : P.Lawful) {a b} (ha : G P H a) (hb : OptG P H b) : S P H (raiseOf a b) := by
  obtain ⟨s, ts, g⟩ := ha
  obtain ⟨o, us, ho, ht, hfin, hp⟩ := opt_tail (x := " from ") (sy := .kFrom) hb ⟨_, .inl rfl⟩
    (fun h => (h.word hP (x := "from ") (k := .kFrom) rfl).sp)
  refine simple_s (s := lit "raise " ++ (s ++ (o.map (lit " from " ++ ·)).getD []))
    ((g.prints.and (optText ho " from ")).succ fun n ⟨h1, h2⟩ c => ?_) ((g.body.tail ht).word hP (k := .kRaise) rfl) (lit_beg rfl)
    (hfin _ g.fin).pre ⟨_, _, rfl, rfl⟩ fun r => ?_
  · show Unparse.raiseStmt (dispatch H n) c _ = _
    have h2 := h2 c
    simp only [Unparse.pure_ok] at h2
    unparsing [Unparse.raiseStmt, g.truthy, h1 c, h2, fill_append]
  · have h1 := g.expr (rest := us ++ .newline :: r)
    obtain ⟨t, q, rfl, ht⟩ := g.head
    rw [List.cons_append, List.append_assoc, List.cons_append, simple_raise (atomStart_newline ht), ← List.cons_append]
    rcases hp with ⟨rfl, rfl⟩ | ⟨us, rfl, hp⟩
    · rw [h1 (NoCont.none rfl)]; rfl
    · rw [h1 (NoCont.none rfl), List.cons_append, seq_some]
      show seq (full .expr _) _ = _
      rw [hp _ (NoCont.none rfl)]; rfl

/-! ### `del`, `global` -/

theorem part_del {t w : Val} (ht : toCtx .Del w = some t) (h : G P H w) : ∃ s ts, (Prints H t s ∧ Fin s) ∧ SepPart P .delTarget t s ts := by
  obtain ⟨s, ts, g⟩ := h
  refine ⟨s, ts, ⟨prints_toCtx ht g.prints, g.fin⟩, g.body, fun u r hu => ?_⟩
  rw [full_at]; show pDelTarget full _ = _
  unfold pDelTarget
  rw [g.primary (sepEnd_cont hu), seq_some, asTarget, ht]; rfl

theorem s_del (hP : P.Lawful) {ts : List Val} (hne : ts ≠ []) (h : ∀ t ∈ ts, ∃ w, G P H w ∧ toCtx .Del w = some t) :
    S P H (deleteOf ts) := by
  obtain ⟨ss, us, h1, h2, h3, h4⟩ := sep_trees hne fun t ht => by obtain ⟨w, g, hw⟩ := h t ht; exact part_del hw g
  refine simple_s (s := lit "del " ++ interleave (lit ", ") ss) (h1.succ fun n hn c => ?_) (h3.word hP (k := .kDel) rfl) (lit_beg rfl)
    h2.pre ⟨_, _, rfl, rfl⟩ fun r => ?_
  · show (do Unparse.wordList (dispatch H n) c "del " (← Unparse.attrL .Delete _ .targets)) = _
    unparsing [Unparse.wordList, hn c, fill_append]
  · rw [full_at, List.cons_append]; show seq (full (.sep .delTarget) _) _ = _
    rw [h4 _ _ (.inl rfl)]; rfl

theorem part_ident (hP : P.Lawful) {x : String} (h : TokOK P (.name x)) : SepPart P .ident (.str x) x.toList [.name x] :=
  ⟨Body.name hP h, fun t r _ => by rw [full_at]; rfl⟩

theorem texts_write : ∀ xs : List String, Unparse.texts Unparse.write (xs.map .str) = .ok (xs.map String.toList)
  | [] => rfl
  | x :: xs => by simp [Unparse.texts, texts_write xs, Unparse.write, Unparse.ok_bind, Unparse.pure_ok]

theorem s_scope (hP : P.Lawful) {k : K} {xs : List String} (hk : k = .Global ∨ k = .Nonlocal) (hne : xs ≠ [])
    (h : ∀ x ∈ xs, TokOK P (.name x)) : S P H (globalOf k (xs.map .str)) := by
  obtain ⟨h1, h2⟩ := sep_of (P := P) (nt := .ident) (ps := xs.map fun x => (Val.str x, x.toList, [.name x])) (by simpa using hne) (by
    intro p hp
    obtain ⟨x, hx, rfl⟩ := List.mem_map.1 hp
    exact part_ident hP (h x hx))
  simp only [List.map_map, Function.comp_def] at h1 h2
  have hf : Fin (interleave (lit ", ") (xs.map String.toList)) := interleave_fin (by simpa using hne) fun s hs => by
    obtain ⟨x, hx, rfl⟩ := List.mem_map.1 hs
    exact name_fin hP (h x hx)
  rcases hk with rfl | rfl
  · refine simple_s (s := lit "global " ++ interleave (lit ", ") (xs.map String.toList)) (prints_const fun n c => ?_)
      (h1.word hP (k := .kGlobal) rfl) (lit_beg rfl) hf.pre ⟨_, _, rfl, rfl⟩ fun r => ?_
    · show (do Unparse.nameList c "global " (← Unparse.attrL .Global _ .names)) = _
      unparsing [Unparse.nameList, texts_write, fill_append]
    · rw [full_at, List.cons_append]; show seq (full (.sep .ident) _) _ = _
      rw [h2 _ _ (.inl rfl)]; rfl
  · refine simple_s (s := lit "nonlocal " ++ interleave (lit ", ") (xs.map String.toList)) (prints_const fun n c => ?_)
      (h1.word hP (k := .kNonlocal) rfl) (lit_beg rfl) hf.pre ⟨_, _, rfl, rfl⟩ fun r => ?_
    · show (do Unparse.nameList c "nonlocal " (← Unparse.attrL .Nonlocal _ .names)) = _
      unparsing [Unparse.nameList, texts_write, fill_append]
    · rw [full_at, List.cons_append]; show seq (full (.sep .ident) _) _ = _
      rw [h2 _ _ (.inl rfl)]; rfl

end Mcpyrate.PyText
