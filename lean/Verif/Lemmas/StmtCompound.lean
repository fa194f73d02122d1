import Verif.Lemmas.StmtImport
/-
Compound statements.
-/
namespace Mcpyrate.PyText
open Py
open Unparse (Host Large Ctx Prints PrintsL PrintsO lit interleave dispatch fill)

variable {P : Reading} {H : Host}

/-! ### What goes on with a statement -/

/-- Lines that can be added to others; `X r₁ r` says what the tokens after the first lines are, if `r` is what comes after all. -/
def Ext (P : Reading) (f : Nat → Str) (X : List Tok → List Tok → Prop) : Prop :=
  ∀ s ts d, Lines P s ts d → ∃ ts' d', Lines P (fun i => s i ++ f i) ts' d' ∧ (∃ q, ts' = ts ++ q) ∧
    ∀ r, ∃ r₁, ts' ++ closing d' r = ts ++ closing d r₁ ∧ X r₁ r

/-- They end with something. -/
def FinExt (f : Nat → Str) : Prop := ∀ s, Finishes s → Finishes fun i => s i ++ f i

theorem Ext.nil : Ext P (fun _ => []) Eq := fun s ts d h =>
  ⟨ts, d, by simpa using h, ⟨[], by simp⟩, fun r => ⟨r, rfl, rfl⟩⟩

theorem FinExt.nil : FinExt fun _ => [] := fun s h => by simpa using h

theorem Ext.comp {f g X Y} (hf : Ext P f X) (hg : Ext P g Y) : Ext P (fun i => f i ++ g i) fun r₁ r => ∃ q, X r₁ q ∧ Y q r := by
  intro s ts d h
  obtain ⟨ts', d', h1, ⟨q, rfl⟩, h2⟩ := hf s ts d h
  obtain ⟨ts'', d'', h3, ⟨q', rfl⟩, h4⟩ := hg _ _ _ h1
  refine ⟨ts ++ q ++ q', d'', by simpa using h3, ⟨q ++ q', by simp⟩, fun r => ?_⟩
  obtain ⟨r₁, e1, hy⟩ := h4 r
  obtain ⟨r₂, e2, hx⟩ := h2 r₁
  exact ⟨r₂, e1.trans e2, r₁, hx, hy⟩

theorem FinExt.comp {f g} (hf : FinExt f) (hg : FinExt g) : FinExt fun i => f i ++ g i := fun s h => by
  have := hg _ (hf _ h)
  simpa using this

theorem Ext.mono {f X Y} (h : Ext P f X) (hXY : ∀ r₁ r, X r₁ r → Y r₁ r) : Ext P f Y := by
  intro s ts d hl
  obtain ⟨ts', d', h1, h2, h3⟩ := h s ts d hl
  exact ⟨ts', d', h1, h2, fun r => by obtain ⟨r₁, e, hx⟩ := h3 r; exact ⟨r₁, e, hXY _ _ hx⟩⟩

/-- A header with its block. -/
theorem Blk.ext {vs b tb db h th} (blk : Blk P H vs b tb db) (hb : Body P h th) (beg : Beg h) :
    Ext P (fun i => '\n' :: (spaces i ++ (h ++ b i))) (fun r₁ r => r₁ = th ++ (tb ++ closing db r)) ∧
    FinExt (fun i => '\n' :: (spaces i ++ (h ++ b i))) := by
  refine ⟨fun s ts d hl => ?_, fun s _ i => ?_⟩
  · have := Lines.next (pre := []) (.inl rfl) hl (blk.header hb) (fun i => beg.app)
    refine ⟨_, _, this, ⟨_, rfl⟩, fun r => ⟨_, ?_, rfl⟩⟩
    simp [closing]
  · obtain ⟨w, c, e, hc⟩ := blk.finishes i
    exact ⟨s i ++ '\n' :: (spaces i ++ (h ++ w)), c, by simp [e], hc⟩

/-- An optional `else` or `finally`. -/
theorem blockIf_ext (hP : P.Lawful) {es : List Val} {x : String} {kw : Sym} (hx : isWord (x ++ " ") kw = true) (h : ∀ e ∈ es, S P H e) :
    ∃ f, (Large fun n => ∀ c, Unparse.blockIf (dispatch H n) c x (.list es) = .ok (f c.indent)) ∧ FinExt f ∧
      Ext P f fun r₁ r => (es = [] ∧ r₁ = r) ∨ ∃ q, r₁ = .sym kw :: q ∧ full .block q = some (.list es, r) := by
  cases es with
  | nil => exact ⟨fun _ => [], Large.all fun _ _ => rfl, FinExt.nil, Ext.nil.mono fun _ _ e => .inl ⟨rfl, e⟩⟩
  | cons e es =>
    obtain ⟨b, tb, db, blk⟩ := blk_of (vs := e :: es) (by simp) h
    obtain ⟨c', w, e1, h1, h2, h3⟩ : ∃ c w, x.toList = c :: w ∧ isLetter c = true ∧ w.all isLetter = true ∧
        keyword? (String.ofList (c :: w)) = some kw := by
      unfold isWord at hx
      cases e : x.toList with
      | nil => simp [e] at hx
      | cons c w =>
        simp only [String.toList_append, e, List.cons_append, show " ".toList = [' '] from rfl] at hx
        simp only [List.dropLast_concat, Bool.and_eq_true, beq_iff_eq] at hx
        exact ⟨c, w, rfl, hx.1.1.1, hx.1.1.2, hx.2⟩
    have hb : Body P (lit x) [.sym kw] := by unfold lit; rw [e1]; exact Body.keyword hP h3 h1 h2
    have hbeg : Beg (lit x) := by unfold lit; rw [e1]; exact ⟨_, _, rfl, letter_noSpace h1⟩
    obtain ⟨g1, g2⟩ := blk.ext hb hbeg
    refine ⟨_, blk.prints.mono fun n hn c => ?_, g2, g1.mono fun r₁ r e => .inr ⟨_, e, blk.parses r⟩⟩
    show (do return fill c (lit x) ++ (← Unparse.block (dispatch H n) c (.list (e :: es)))) = _
    rw [hn c]
    show Except.ok (fill c (lit x) ++ b c.indent) = _
    rw [fill_append]; rfl

theorem orelse_parse {es r₁ r} (h : (es = [] ∧ r₁ = r) ∨ ∃ q, r₁ = .sym .kElse :: q ∧ full .block q = some (.list es, r))
    (hr : ∀ r', r ≠ .sym .kElse :: r') : full .orelse r₁ = some (.list es, r) := by
  rw [full_at]; show pOrelse full r₁ = _
  unfold pOrelse
  rcases h with ⟨rfl, rfl⟩ | ⟨q, rfl, h⟩
  · split
    · exact absurd rfl (hr _)
    · rfl
  · exact h

theorem finals_parse {es r₁ r} (h : (es = [] ∧ r₁ = r) ∨ ∃ q, r₁ = .sym .kFinally :: q ∧ full .block q = some (.list es, r))
    (hr : ∀ r', r ≠ .sym .kFinally :: r') : full .finals r₁ = some (.list es, r) := by
  rw [full_at]; show pFinals full r₁ = _
  unfold pFinals
  rcases h with ⟨rfl, rfl⟩ | ⟨q, rfl, h⟩
  · split
    · exact absurd rfl (hr _)
    · rfl
  · exact h

/-- A statement with a header, a block, and more. -/
theorem compound_s {v : Val} {vs h th b tb db f X}
    (prints : Large fun n => ∀ c, dispatch H n c v = .ok (fill c (h ++ b c.indent ++ f c.indent)))
    (hb : Body P h th) (beg : Beg h) (blk : Blk P H vs b tb db) (ext : Ext P f X) (fin : FinExt f)
    (head : ∃ t r, th = t :: r ∧ t ≠ .dedent ∧ clauseTok t = false)
    (parses : ∀ r r₁, NoClause r → X r₁ r → full .stmt (th ++ (tb ++ closing db r₁)) = some (v, r)) : S P H v := by
  obtain ⟨ts', d', h1, ⟨q, rfl⟩, h3⟩ := ext _ _ _ (blk.header hb)
  refine ⟨[], fun i => h ++ b i ++ f i, _, _, prints, .inl rfl, h1, fun i => beg.app.app, fin _ fun i => ?_, ?_, fun r hr => ?_⟩
  · obtain ⟨w, c, e, hc⟩ := blk.finishes i
    exact ⟨h ++ w, c, by simp [e], hc⟩
  · obtain ⟨t, r, rfl, ht⟩ := head
    exact ⟨t, _, rfl, ht⟩
  · obtain ⟨r₁, e, hx⟩ := h3 r
    rw [e, List.append_assoc]
    exact parses r r₁ hr hx

/-! ### `while`, `for` -/

theorem s_while (hP : P.Lawful) {t : Val} {b e : List Val} (ht : G P H t) (hn : b ≠ []) (hb : ∀ s ∈ b, S P H s) (he : ∀ s ∈ e, S P H s) :
    S P H (whileOf t b e) := by
  obtain ⟨s, ts, g⟩ := ht
  obtain ⟨bt, tb, db, blk⟩ := blk_of hn hb
  obtain ⟨f, h1, h2, h3⟩ := blockIf_ext hP (x := "else") (kw := .kElse) rfl he
  refine compound_s (h := lit "while " ++ s) (((g.prints.and blk.prints).and h1).succ fun n ⟨⟨h4, h5⟩, h6⟩ c => ?_)
    (g.body.word hP (k := .kWhile) rfl) (lit_beg rfl) blk h3 h2 ⟨_, _, rfl, by decide, rfl⟩ fun r r₁ hr hx => ?_
  · show Unparse.whileStmt (dispatch H n) c _ = _
    unparsing [Unparse.whileStmt, h4 c, h5 c, h6 c, fill_append]
  · rw [full_at]; show whileRest full (ts ++ (tb ++ closing db r₁)) = _
    unfold whileRest
    rw [g.expr (blk.noCont _), seq_some, blk.parses, seq_some, orelse_parse hx fun r' => hr.ne rfl]; rfl

theorem s_for (hP : P.Lawful) {k : K} {t i : Val} {b e : List Val} (hk : k = .For ∨ k = .AsyncFor) (ht : Target P H t) (hi : G P H i)
    (hn : b ≠ []) (hb : ∀ s ∈ b, S P H s) (he : ∀ s ∈ e, S P H s) : S P H (forOf k t i b e) := by
  obtain ⟨s, ts, g⟩ := hi
  obtain ⟨s', ts', hp, hb', hpar⟩ := ht.first
  obtain ⟨bt, tb, db, blk⟩ := blk_of hn hb
  obtain ⟨f, h1, h2, h3⟩ := blockIf_ext hP (x := "else") (kw := .kElse) rfl he
  have hin : Body P (s' ++ (lit " in " ++ s)) (ts' ++ .sym .kIn :: ts) :=
    hb'.tail (Tail.cons (g.body.word hP (x := "in ") (k := .kIn) rfl).sp rfl)
  have hparse : ∀ k r r₁, NoClause r → ((e = [] ∧ r₁ = r) ∨ ∃ q, r₁ = .sym .kElse :: q ∧ full .block q = some (.list e, r)) →
      seq (full .target (ts' ++ .sym .kIn :: ts ++ (tb ++ closing db r₁))) (forIn full k) = some (forOf k t i b e, r) := by
    intro k r r₁ hr hx
    rw [List.append_assoc, List.cons_append, hpar _ (NoCont.lt (j := 4) rfl (by decide)), seq_some]
    show seq (full .expr _) _ = _
    rw [g.expr (blk.noCont _), seq_some, blk.parses, seq_some, orelse_parse hx fun r' => hr.ne rfl]; rfl
  rcases hk with rfl | rfl
  · refine compound_s (h := lit "for " ++ (s' ++ (lit " in " ++ s)))
      ((((hp.and g.prints).and blk.prints).and h1).succ fun n ⟨⟨⟨h4, h5⟩, h6⟩, h7⟩ c => ?_)
      (hin.word hP (k := .kFor) rfl) (lit_beg rfl) blk h3 h2 ⟨_, _, rfl, by decide, rfl⟩ fun r r₁ hr hx => ?_
    · show Unparse.forStmt (dispatch H n) c "for " .For _ = _
      unparsing [Unparse.forStmt, h4 c, h5 c, h6 c, h7 c, fill_append]
    · rw [full_at]; exact hparse .For r r₁ hr hx
  · have ha : Body P (lit "async " ++ (lit "for " ++ (s' ++ (lit " in " ++ s)))) (.sym .kAsync :: .sym .kFor :: (ts' ++ .sym .kIn :: ts)) :=
      (hin.word hP (k := .kFor) rfl).word hP (k := .kAsync) rfl
    refine compound_s (h := lit "async for " ++ (s' ++ (lit " in " ++ s)))
      ((((hp.and g.prints).and blk.prints).and h1).succ fun n ⟨⟨⟨h4, h5⟩, h6⟩, h7⟩ c => ?_)
      ha (lit_beg rfl) blk h3 h2 ⟨_, _, rfl, by decide, rfl⟩ fun r r₁ hr hx => ?_
    · show Unparse.forStmt (dispatch H n) c "async for " .AsyncFor _ = _
      unparsing [Unparse.forStmt, h4 c, h5 c, h6 c, h7 c, fill_append]
    · rw [full_at]; exact hparse .AsyncFor r r₁ hr hx

/-! ### `with` -/

theorem part_with (hP : P.Lawful) {v a t : Val} (ha : G P H a) (ht : t = .none ∨ Target P H t) (hv : v = withItemOf a t) :
    ∃ s ts, (Prints H v s ∧ True) ∧ SepPart P .withItem v s ts := by
  subst hv
  obtain ⟨s, ts, g⟩ := ha
  rcases ht with rfl | ht
  · refine ⟨s, ts, ⟨g.prints.succ fun n hn c => ?_, trivial⟩, g.body, fun u r hu => ?_⟩
    · show Unparse.withitem (dispatch H n) c _ = _
      unparsing [Unparse.withitem, hn c, Unparse.opt, Unparse.truthy, FutureImports.truthy]
    · rw [full_at]; show pWithItem full _ = _
      unfold pWithItem
      rw [g.expr (sepEnd_cont hu), seq_some]
      unfold withAs
      split
      · rename_i e; cases e; exact nomatch hu
      · rfl
  · obtain ⟨s', ts', hp, hb, hpar⟩ := ht.first
    have htr : Unparse.truthy t = true := by
      obtain ⟨w, hw, -⟩ := ht
      unfold toCtx at hw
      repeat' split at hw
      all_goals first | (cases hw; rfl) | exact nomatch hw
    refine ⟨s ++ (lit " as " ++ s'), ts ++ .sym .kAs :: ts', ⟨(g.prints.and hp).succ fun n ⟨h1, h2⟩ c => ?_, trivial⟩,
      g.body.tail (Tail.cons (hb.word hP (x := "as ") (k := .kAs) rfl).sp rfl), fun u r hu => ?_⟩
    · show Unparse.withitem (dispatch H n) c _ = _
      unparsing [Unparse.withitem, h1 c, h2 c, Unparse.opt, htr]
    · rw [full_at]; show pWithItem full _ = _
      unfold pWithItem
      rw [List.append_assoc, List.cons_append, g.expr (NoCont.none rfl), seq_some]
      show seq (full .target _) _ = _
      rw [hpar _ (sepEnd_cont hu)]; rfl

theorem s_with (hP : P.Lawful) {k : K} {is b : List Val} (hk : k = .With ∨ k = .AsyncWith) (hi : is ≠ [])
    (hw : ∀ i ∈ is, ∃ a t, G P H a ∧ (t = .none ∨ Target P H t) ∧ i = withItemOf a t) (ht : inParens is = none)
    (hn : b ≠ []) (hb : ∀ s ∈ b, S P H s) : S P H (withOf k is b) := by
  obtain ⟨ps, hps, h1, h2⟩ := parts_of (P := P) (nt := .withItem) (Q := fun v s => Prints H v s ∧ True) (vs := is) fun i hi => by
    obtain ⟨a, t, ha, ht, e⟩ := hw i hi; exact part_with hP ha ht e
  have hne : ps ≠ [] := by rintro rfl; exact hi hps.symm
  obtain ⟨h3, h4⟩ := sep_of hne h2
  have hpr := printsL_parts (H := H) (ps := ps) fun p hp => (h1 p hp).1
  rw [hps] at h4 hpr
  obtain ⟨bt, tb, db, blk⟩ := blk_of hn hb
  have hparse : ∀ k r, withRest full k (interleaveT (ps.map (·.2.2)) ++ (tb ++ closing db r)) = some (withOf k is b, r) := by
    intro k r
    have h5 := blk.parses r
    obtain ⟨q, rfl⟩ := blk.head
    unfold withRest
    rw [List.cons_append] at h5 ⊢
    rw [h4 _ _ (.inr rfl), seq_some]
    unfold withBody withItems
    rw [show Val.elts (.list is) = is from rfl, ht]
    dsimp only
    rw [h5]; rfl
  rcases hk with rfl | rfl
  · refine compound_s (h := lit "with " ++ interleave (lit ", ") (ps.map (·.2.1))) (f := fun _ => []) (X := Eq)
      ((hpr.and blk.prints).succ fun n ⟨h5, h6⟩ c => ?_)
      (h3.word hP (k := .kWith) rfl) (lit_beg rfl) blk Ext.nil FinExt.nil ⟨_, _, rfl, by decide, rfl⟩ fun r r₁ hr hx => ?_
    · show Unparse.withStmt (dispatch H n) c "with " .With _ = _
      unparsing [Unparse.withStmt, h5 c, h6 c, fill_append]
    · cases hx; rw [full_at]; exact hparse .With r
  · refine compound_s (h := lit "async with " ++ interleave (lit ", ") (ps.map (·.2.1))) (f := fun _ => []) (X := Eq)
      ((hpr.and blk.prints).succ fun n ⟨h5, h6⟩ c => ?_)
      ((h3.word hP (x := "with ") (k := .kWith) rfl).word hP (x := "async ") (k := .kAsync) rfl) (lit_beg rfl) blk Ext.nil FinExt.nil
      ⟨_, _, rfl, by decide, rfl⟩ fun r r₁ hr hx => ?_
    · show Unparse.withStmt (dispatch H n) c "async with " .AsyncWith _ = _
      unparsing [Unparse.withStmt, h5 c, h6 c, fill_append]
    · cases hx; rw [full_at]; exact hparse .AsyncWith r

end Mcpyrate.PyText
