import Verif.Lemmas.StmtSimple
/-
Assignments and imports.
-/
namespace Mcpyrate.PyText
open Py
open Unparse (Host Large Ctx Prints PrintsL PrintsO lit interleave dispatch fill)

variable {P : Reading} {H : Host}

/-! ### Assignments -/

theorem Elem.beg (hP : P.Lawful) {v} (h : Elem P H v) {s} (hp : Prints H v s) : Beg s := by
  have : ∀ {s'}, Prints H v s' → Beg s' → Beg s := by
    intro s' h1 h2
    obtain ⟨N, hN⟩ := h1.and hp
    obtain ⟨h3, h4⟩ := hN N (Nat.le_refl _)
    have h5 := (h3 ⟨0, []⟩).symm.trans (h4 ⟨0, []⟩)
    cases h5; exact h2
  rcases h with ⟨s', ts, g⟩ | ⟨w, rfl, s', ts, g⟩
  · exact this g.prints (g.beg hP)
  · exact this (Prints.starred g.prints) ⟨_, _, rfl, by decide⟩

/-- `= v`, and more of that. -/
theorem Body.eq {s ts} (h : Body P s ts) : Tail P (' ' :: '=' :: ' ' :: s) (.sym .eq :: ts) :=
  Tail.cons (fun t k rest ht hf => Lx.sp (Lx.eq' (Lx.sp (h t k rest ht hf)) (by simp))) rfl

/-- The targets and the value. -/
theorem assigns_ok {v x vt} (g : Good P H v x vt) : ∀ {ts : List Val}, (∀ t ∈ ts, Target P H t) → ∃ ws s us,
    toCtxL .Store ws = some ts ∧
    (Large fun n => ∀ c, Unparse.concat (fun x => do return (← dispatch H n c x) ++ lit " = ") ts = .ok s) ∧
    Body P (s ++ x) us ∧ ∀ r, full .assigns (us ++ .newline :: r) = some (.list (ws ++ [v]), .newline :: r)
  | [], _ => ⟨[], [], vt, rfl, Large.all fun _ _ => rfl, g.body, fun r => by
      rw [full_at]; show pAssigns full _ = _
      unfold pAssigns
      rw [g.elem (NoCont.none rfl)]; rfl⟩
  | t :: ts, h => by
    obtain ⟨ws, s, us, h1, h2, h3, h4⟩ := assigns_ok g (ts := ts) fun x hx => h x (by simp [hx])
    obtain ⟨w, hw, he⟩ := h t (by simp)
    obtain ⟨s', ts', hp, -, hb, hpar⟩ := he.first
    refine ⟨w :: ws, s' ++ lit " = " ++ s, ts' ++ .sym .eq :: us, by simp [toCtxL, hw, h1], ?_, ?_, fun r => ?_⟩
    · exact ((prints_toCtx hw hp).and h2).mono fun n ⟨h5, h6⟩ c => by
        have h7 : (do return (← dispatch H n c t) ++ lit " = " : Unparse.R) = .ok (s' ++ lit " = ") := by rw [h5 c]; rfl
        exact concat_cons h7 (h6 c)
    · have := hb.tail (Body.eq h3)
      simpa [lit] using this
    · rw [full_at]; show pAssigns full _ = _
      unfold pAssigns
      rw [List.append_assoc, List.cons_append, hpar _ (NoCont.none rfl), seq_some]
      show seq (full .assigns _) _ = _
      rw [h4]; rfl

theorem assignOf_ok {ws : List Val} {ts v} (h : toCtxL .Store ws = some ts) (hv : isStarred v = false) :
    assignOf (ws ++ [v]) = some (assignTree ts v) := by
  simp [assignOf, h, hv]

theorem s_assign (hP : P.Lawful) {ts : List Val} {v : Val} (hne : ts ≠ []) (ht : ∀ t ∈ ts, Target P H t) (hv : G P H v) :
    S P H (assignTree ts v) := by
  obtain ⟨x, vt, g⟩ := hv
  cases ts with
  | nil => exact absurd rfl hne
  | cons t ts =>
    obtain ⟨ws, s, us, h1, h2, h3, h4⟩ := assigns_ok g (ts := ts) fun x hx => ht x (by simp [hx])
    obtain ⟨w, hw, he⟩ := ht t (by simp)
    obtain ⟨s', ts', hp, hst, hb, hpar⟩ := he.first
    obtain ⟨t', r', e, ht'⟩ := hst.head
    refine simple_s (s := s' ++ (lit " = " ++ (s ++ x))) (ts := ts' ++ .sym .eq :: us)
      ((((prints_toCtx hw hp).and h2).and g.prints).succ fun n ⟨⟨h5, h6⟩, h7⟩ c => ?_) (hb.tail (Body.eq h3)) ((he.beg hP hp).app)
      g.fin.pre.pre.pre ⟨t', r' ++ .sym .eq :: us, by rw [e]; rfl, elemTok_simple ht'⟩ fun r => ?_
    · have h8 : (do return (← dispatch H n c t) ++ lit " = " : Unparse.R) = .ok (s' ++ lit " = ") := by rw [h5 c]; rfl
      have h9 := concat_cons h8 (h6 c)
      simp only [Unparse.pure_ok] at h9
      show Unparse.assign (dispatch H n) c _ = _
      unparsing [Unparse.assign, h9, h7 c, fill_append]
    · have h5 := hpar (.sym .eq :: (us ++ .newline :: r)) (NoCont.none rfl)
      rw [List.append_assoc, List.cons_append]
      rw [e, List.cons_append] at h5 ⊢
      rw [simple_elem ht', h5, seq_some]
      show seq (full .assigns _) _ = _
      rw [h4, seq_some]
      show Option.map _ (assignOf (w :: (ws ++ [v]))) = _
      rw [← List.cons_append, assignOf_ok (ts := t :: ts) (by simp [toCtxL, hw, h1]) g.notStarred]; rfl

/-- The tokens `+=`, …. -/
theorem aug_op {k : K} (h : k ∈ binaryOps) : ∃ (sy : Sym) (x : String), Unparse.binop k = some x ∧ contLevel (.sym sy) = none ∧
    (∀ p ts v r, simpleRest p ts v (.sym sy :: r) = match single v with
      | some t => seq (p .expr r) fun a r => some (augAssignOf t k a, r)
      | none => none) ∧
    ∀ {P : Reading} {t rest q}, Lx P (' ' :: t) q rest → Lx P (x.toList ++ '=' :: ' ' :: t) (.sym sy :: q) rest := by
  simp only [binaryOps, List.mem_cons, List.not_mem_nil, or_false] at h
  have rest : ∀ (sy : Sym), augSym sy = some k → sy ≠ .eq → sy ≠ .colon →
      ∀ p ts v r, simpleRest p ts v (.sym sy :: r) = match single v with
      | some t => seq (p .expr r) fun a r => some (augAssignOf t k a, r)
      | none => none := by
    intro sy h1 h2 h3 p ts v r
    unfold simpleRest
    split
    · rename_i e; cases e
    · rename_i e; cases e; exact absurd rfl h2
    · rename_i e; cases e; exact absurd rfl h3
    · rename_i e; cases e
      rw [h1]
      cases single v <;> rfl
    · rename_i h; exact (h _ _ rfl).elim
  have one : ∀ c : Char, ∀ s : Sym, (∀ P : Reading, P.start c = false) → isDigit c = false → isQuote c = false → c ≠ ' ' →
      c ≠ '\n' → (∀ r : Str, r.head? = some ' ' → operator? c ('=' :: r) = some (s, r)) →
      ∀ {P : Reading} {t rest k}, Lx P (' ' :: t) k rest → Lx P ([c] ++ '=' :: ' ' :: t) (.sym s :: k) rest :=
    fun c s h1 h2 h3 h4 h5 h6 P t rest k h => Lx.op (w := ['=']) h h2 (h1 P) h3 h4 h5 h6
  have two : ∀ c d : Char, ∀ s : Sym, (∀ P : Reading, P.start c = false) → isDigit c = false → isQuote c = false → c ≠ ' ' →
      c ≠ '\n' → (∀ r : Str, r.head? = some ' ' → operator? c (d :: '=' :: r) = some (s, r)) →
      ∀ {P : Reading} {t rest k}, Lx P (' ' :: t) k rest → Lx P ([c, d] ++ '=' :: ' ' :: t) (.sym s :: k) rest :=
    fun c d s h1 h2 h3 h4 h5 h6 P t rest k h => Lx.op (w := [d, '=']) h h2 (h1 P) h3 h4 h5 h6
  rcases h with rfl | rfl | rfl | rfl | rfl | rfl | rfl | rfl | rfl | rfl | rfl | rfl | rfl
  · exact ⟨.plusEq, "+", rfl, rfl, rest _ rfl (by decide) (by decide), one '+' _ (fun _ => rfl) rfl rfl (by decide) (by decide) (by intro r hr; simp [operator?, eqOr])⟩
  · exact ⟨.minusEq, "-", rfl, rfl, rest _ rfl (by decide) (by decide), one '-' _ (fun _ => rfl) rfl rfl (by decide) (by decide) (by intro r hr; simp [operator?, eqOr])⟩
  · exact ⟨.starEq, "*", rfl, rfl, rest _ rfl (by decide) (by decide), one '*' _ (fun _ => rfl) rfl rfl (by decide) (by decide) (by intro r hr; simp [operator?, eqOr])⟩
  · exact ⟨.slashEq, "/", rfl, rfl, rest _ rfl (by decide) (by decide), one '/' _ (fun _ => rfl) rfl rfl (by decide) (by decide) (by intro r hr; simp [operator?, eqOr])⟩
  · exact ⟨.slashSlashEq, "//", rfl, rfl, rest _ rfl (by decide) (by decide), two '/' '/' _ (fun _ => rfl) rfl rfl (by decide) (by decide) (by intro r hr; simp [operator?, eqOr])⟩
  · exact ⟨.percentEq, "%", rfl, rfl, rest _ rfl (by decide) (by decide), one '%' _ (fun _ => rfl) rfl rfl (by decide) (by decide) (by intro r hr; simp [operator?, eqOr])⟩
  · exact ⟨.atEq, "@", rfl, rfl, rest _ rfl (by decide) (by decide), one '@' _ (fun _ => rfl) rfl rfl (by decide) (by decide) (by intro r hr; simp [operator?, eqOr])⟩
  · exact ⟨.starStarEq, "**", rfl, rfl, rest _ rfl (by decide) (by decide), two '*' '*' _ (fun _ => rfl) rfl rfl (by decide) (by decide) (by intro r hr; simp [operator?, eqOr])⟩
  · exact ⟨.ltLtEq, "<<", rfl, rfl, rest _ rfl (by decide) (by decide), two '<' '<' _ (fun _ => rfl) rfl rfl (by decide) (by decide) (by intro r hr; simp [operator?, eqOr])⟩
  · exact ⟨.gtGtEq, ">>", rfl, rfl, rest _ rfl (by decide) (by decide), two '>' '>' _ (fun _ => rfl) rfl rfl (by decide) (by decide) (by intro r hr; simp [operator?, eqOr])⟩
  · exact ⟨.barEq, "|", rfl, rfl, rest _ rfl (by decide) (by decide), one '|' _ (fun _ => rfl) rfl rfl (by decide) (by decide) (by intro r hr; simp [operator?, eqOr])⟩
  · exact ⟨.caretEq, "^", rfl, rfl, rest _ rfl (by decide) (by decide), one '^' _ (fun _ => rfl) rfl rfl (by decide) (by decide) (by intro r hr; simp [operator?, eqOr])⟩
  · exact ⟨.ampEq, "&", rfl, rfl, rest _ rfl (by decide) (by decide), one '&' _ (fun _ => rfl) rfl rfl (by decide) (by decide) (by intro r hr; simp [operator?, eqOr])⟩

theorem single_toCtx {w t} (h : single w = some t) : toCtx .Store w = some t := by
  unfold single at h
  split at h
  · exact h
  · exact nomatch h

theorem s_augAssign (hP : P.Lawful) {w t v : Val} {k : K} (hk : k ∈ binaryOps) (hw : G P H w) (ht : single w = some t) (hv : G P H v) :
    S P H (augAssignOf t k v) := by
  obtain ⟨s, ts, g⟩ := hw
  obtain ⟨x, vt, g'⟩ := hv
  obtain ⟨sy, o, ho, hc, hr, hl⟩ := aug_op hk
  obtain ⟨t', r', e, ht'⟩ := g.head
  have htail : Tail P (' ' :: (o.toList ++ '=' :: ' ' :: x)) (.sym sy :: vt) :=
    Tail.cons (fun t k rest h1 h2 => by
      have := Lx.sp (hl (Lx.sp (g'.body t k rest h1 h2)))
      simpa using this) rfl
  refine simple_s (s := s ++ (lit " " ++ (o.toList ++ (lit "= " ++ x)))) (ts := ts ++ .sym sy :: vt)
    (((prints_toCtx (single_toCtx ht) g.prints).and g'.prints).succ fun n ⟨h1, h2⟩ c => ?_) (g.body.tail htail) ((g.beg hP).app)
    g'.fin.pre.pre.pre.pre ⟨t', r' ++ .sym sy :: vt, by rw [e]; rfl, elemTok_simple (.inl ht')⟩ fun r => ?_
  · show Unparse.augAssign (dispatch H n) c _ = _
    unparsing [Unparse.augAssign, h1 c, h2 c, ho, fill_append]
  · have h5 := g.elem (rest := .sym sy :: (vt ++ .newline :: r)) (NoCont.none hc)
    rw [List.append_assoc, List.cons_append]
    rw [e, List.cons_append] at h5 ⊢
    rw [simple_elem (.inl ht'), h5, seq_some, hr, ht]
    dsimp only
    rw [g'.expr (NoCont.none rfl)]; rfl

/-! ### Annotations -/

theorem ann_tail {a v : Val} (ha : G P H a) (hv : OptG P H v) : ∃ s o ts, Prints H a s ∧ PrintsO H v o ∧
    Tail P (':' :: ' ' :: (s ++ (o.map (lit " = " ++ ·)).getD [])) (.sym .colon :: ts) ∧
    Fin (s ++ (o.map (lit " = " ++ ·)).getD []) ∧
    ∀ t simple r, (seq (full .expr (ts ++ .newline :: r)) fun a r => annValue full t a simple r) =
      some (annAssignOf t a v simple, .newline :: r) := by
  obtain ⟨s, ts, g⟩ := ha
  obtain ⟨o, us, ho, ht, hfin, hp⟩ := opt_tail (x := " = ") (sy := .eq) hv ⟨_, .inl rfl⟩ (fun h => (Body.eq h).lx)
  refine ⟨s, o, ts ++ us, g.prints, ho, Tail.cons (fun t k rest h1 h2 => Lx.colon' (Lx.sp (g.body.tail ht t k rest h1 h2)) (by simp)) rfl,
    hfin _ g.fin, fun t simple r => ?_⟩
  rw [List.append_assoc]
  rcases hp with ⟨rfl, rfl⟩ | ⟨us, rfl, hp⟩
  · rw [List.nil_append, g.expr (NoCont.none rfl)]; rfl
  · rw [List.cons_append, g.expr (NoCont.none rfl), seq_some]
    show seq (full .expr _) _ = _
    rw [hp _ (NoCont.none rfl)]; rfl

theorem s_annName (hP : P.Lawful) {x : String} {a v : Val} (hx : TokOK P (.name x)) (ha : G P H a) (hv : OptG P H v) :
    S P H (annAssignOf (name x .Store) a v 1) := by
  obtain ⟨s, o, ts, h1, h2, h3, h4, h5⟩ := ann_tail ha hv
  refine simple_s (s := x.toList ++ (lit ": " ++ (s ++ (o.map (lit " = " ++ ·)).getD []))) (ts := [.name x] ++ .sym .colon :: ts)
    ((h1.and (optText h2 " = ")).and (Prints.name (H := H) (s := x) (k := .Store)) |>.succ fun n ⟨⟨h5, h6⟩, h7⟩ c => ?_)
    ((Body.name hP hx).tail h3) ((good_name (H := H) hP hx).beg hP).app h4.pre.pre ⟨_, _, rfl, rfl⟩ fun r => ?_
  · have h6 := h6 c
    simp only [Unparse.pure_ok] at h6
    show Unparse.annAssign (dispatch H n) c _ = _
    unparsing [Unparse.annAssign, h5 c, h6, h7 c, fill_append, Unparse.truthy, FutureImports.truthy]
  · have := (good_name (H := H) hP hx).elem (rest := .sym .colon :: (ts ++ .newline :: r)) (NoCont.none rfl)
    show full .simple (.name x :: .sym .colon :: (ts ++ .newline :: r)) = _
    rw [simple_elem (.inl rfl)]
    rw [List.singleton_append] at this
    rw [this, seq_some]
    exact h5 (name x .Store) 1 r

/-- An expression in parentheses. -/
theorem Good.inParens {v s ts rest} (g : Good P H v s ts) (hr : NoCont 0 rest) :
    full .elem (.sym .lpar :: (ts ++ .sym .rpar :: rest)) = some (v, rest) := by
  have h1 : full .paren (ts ++ .sym .rpar :: rest) = some (v, rest) := by
    obtain ⟨t, r, rfl, ht⟩ := g.head
    exact paren_level (K := 14) (Nat.le_refl _) (g.primary (NoCont.none rfl))
      ⟨t, r, rfl, opener_atom ht, by rw [atomStart_level ht]; omega⟩ (g.notNamed (by simp)) g.notStarred
  have h2 : full .primary (.sym .lpar :: (ts ++ .sym .rpar :: rest)) = some (v, rest) := by
    rw [full_at]; show pPrimary full _ = _
    unfold pPrimary
    rw [full_at]; show seq (full .paren _) _ = _
    rw [h1]; exact primRest_stop (hr.mono (by decide))
  exact elem_of_expr (lift (K := 14) (L := 0) (Nat.le_refl _) (by decide) h2 ⟨_, _, rfl, by decide⟩ hr) (by simp)

theorem s_annOther (hP : P.Lawful) {w t a v : Val} (hw : G P H w) (ht : single w = some t) (ha : G P H a) (hv : OptG P H v) :
    S P H (annAssignOf t a v 0) := by
  obtain ⟨x, us, g⟩ := hw
  obtain ⟨s, o, ts, h1, h2, h3, h4, h5⟩ := ann_tail ha hv
  refine simple_s (s := lit "(" ++ (x ++ (lit ")" ++ (lit ": " ++ (s ++ (o.map (lit " = " ++ ·)).getD [])))))
    (ts := .sym .lpar :: (us ++ .sym .rpar :: .sym .colon :: ts))
    ((h1.and (optText h2 " = ")).and (prints_toCtx (single_toCtx ht) g.prints) |>.succ fun n ⟨⟨h5, h6⟩, h7⟩ c => ?_)
    (fun t k rest h6 h7 => ?_) (lit_beg rfl) h4.pre.pre.pre.pre ⟨_, _, rfl, rfl⟩ fun r => ?_
  · have h6 := h6 c
    simp only [Unparse.pure_ok] at h6
    show Unparse.annAssign (dispatch H n) c _ = _
    unparsing [Unparse.annAssign, h5 c, h6, h7 c, fill_append, Unparse.truthy, FutureImports.truthy]
  · have h8 := g.body.tail (Tail.cons (c := ')') (s := ':' :: ' ' :: (s ++ (o.map (lit " = " ++ ·)).getD [])) (ts := .sym .rpar :: .sym .colon :: ts) (fun t k rest h6 h7 => Lx.rpar' (h3.lx t k rest h6 h7)) rfl) t k rest h6 h7
    have := Lx.lpar' h8
    simpa [lit] using this
  · have := g.inParens (rest := .sym .colon :: (ts ++ .newline :: r)) (NoCont.none rfl)
    have e : .sym .lpar :: (us ++ .sym .rpar :: .sym .colon :: ts) ++ .newline :: r =
      .sym .lpar :: (us ++ .sym .rpar :: .sym .colon :: (ts ++ .newline :: r)) := by simp
    rw [e, simple_elem (.inl rfl), this, seq_some]
    show (match single w with | some t => _ | none => _) = _
    rw [ht]
    exact h5 t 0 r

end Mcpyrate.PyText
