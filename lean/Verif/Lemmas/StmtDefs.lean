import Verif.Lemmas.StmtCompound
/-
`if`, `try`, and definitions.
-/
namespace Mcpyrate.PyText
open Py
open Unparse (Host Large Ctx Prints PrintsL PrintsO lit interleave dispatch fill)

variable {P : Reading} {H : Host}

/-! ### `if` -/

/-- What comes after the `if` (or `elif`). -/
structure IfParts (P : Reading) (H : Host) (v : Val) (fs : Fields) (s : Str) (ts : List Tok) (vs : List Val) (b : Nat → Str)
    (tb : List Tok) (db : Nat) (f : Nat → Str) (X : List Tok → List Tok → Prop) : Prop where
  body : Body P s ts
  blk : Blk P H vs b tb db
  ext : Ext P f X
  fin : FinExt f
  prints : ∃ N, ∀ n m, N ≤ n → N ≤ m → ∀ c (word : String),
    Unparse.ifStmt (dispatch H n) c word m fs = .ok (fill c (lit word ++ s ++ b c.indent ++ f c.indent))
  parses : ∀ r r₁, NoClause r → X r₁ r → full .ifRest (ts ++ (tb ++ closing db r₁)) = some (v, r)

def IfGood (P : Reading) (H : Host) (v : Val) (fs : Fields) : Prop := ∃ s ts vs b tb db f X, IfParts P H v fs s ts vs b tb db f X

theorem IfGood.s (hP : P.Lawful) {fs} (h : IfGood P H (mk .If fs) fs) : S P H (mk .If fs) := by
  obtain ⟨s, ts, vs, b, tb, db, f, X, h⟩ := h
  refine compound_s (h := lit "if " ++ s) ?_ (h.body.word hP (k := .kIf) rfl) (lit_beg rfl) h.blk h.ext h.fin
    ⟨_, _, rfl, by decide, rfl⟩ fun r r₁ hr hx => ?_
  · obtain ⟨N, hN⟩ := h.prints
    refine Large.succ ⟨N, fun n hn => hn⟩ (p := fun n => N ≤ n) fun n hn c => ?_
    exact hN n n hn hn c "if "
  · rw [full_at]; exact h.parses r r₁ hr hx

theorem elifs_none {r} (hr : NoClause r) : full .elifs r = some (.list [], r) := by
  rw [full_at]; show pElifs full r = _
  unfold pElifs
  split
  · exact absurd rfl (hr.ne rfl)
  · exact absurd rfl (hr.ne rfl)
  · rfl

/-- Not a single `if`. -/
theorem ifGood_else (hP : P.Lawful) {t : Val} {b e : List Val} (ht : G P H t) (hn : b ≠ []) (hb : ∀ s ∈ b, S P H s) (he : ∀ s ∈ e, S P H s)
    (hne : ∀ m gs, e ≠ [.node (.py .If) m gs]) :
    IfGood P H (ifOf t b e) [(.test, t), (.body, .list b), (.orelse, .list e)] := by
  obtain ⟨s, ts, g⟩ := ht
  obtain ⟨bt, tb, db, blk⟩ := blk_of hn hb
  obtain ⟨f, h1, h2, h3⟩ := blockIf_ext hP (x := "else") (kw := .kElse) rfl he
  refine ⟨s, ts, b, bt, tb, db, f, _, g.body, blk, h3, h2, ?_, fun r r₁ hr hx => ?_⟩
  · obtain ⟨N, hN⟩ := (g.prints.and blk.prints).and h1
    refine ⟨N + 1, fun n m hn hm c word => ?_⟩
    obtain ⟨m, rfl⟩ : ∃ k, m = k + 1 := ⟨m - 1, by omega⟩
    obtain ⟨⟨h4, h5⟩, h6⟩ := hN n (by omega)
    unfold Unparse.ifStmt
    have ha : Unparse.attr .If [(.test, t), (.body, .list b), (.orelse, .list e)] .orelse = .ok (.list e) := by
      rw [Unparse.attr_there (by decide), Unparse.attr_there (by decide), Unparse.attr_here]
    have hb' : Unparse.attr .If [(.test, t), (.body, .list b), (.orelse, .list e)] .body = .ok (.list b) := by
      rw [Unparse.attr_there (by decide), Unparse.attr_here]
    rw [Unparse.attr_here, hb', ha]
    simp only [Unparse.ok_bind, h4 c, h5 c]
    split
    · rename_i e'; simp only [Val.list.injEq] at e'; exact absurd e' (hne _ _)
    · rw [h6 c]
      show Except.ok _ = _
      simp [fill_append]
  · rw [full_at]; show pIfRest full _ = _
    unfold pIfRest
    rw [g.expr (blk.noCont _), seq_some, blk.parses, seq_some]
    have : full .elifs r₁ = some (.list e, r) := by
      rcases hx with ⟨rfl, rfl⟩ | ⟨q, rfl, hq⟩
      · exact elifs_none hr
      · rw [full_at]; exact hq
    rw [this]; rfl

/-- A single `if` in the `else`: `elif`. -/
theorem ifGood_elif (hP : P.Lawful) {t : Val} {b : List Val} {gs : Fields} (ht : G P H t) (hn : b ≠ []) (hb : ∀ s ∈ b, S P H s)
    (he : IfGood P H (mk .If gs) gs) :
    IfGood P H (ifOf t b [mk .If gs]) [(.test, t), (.body, .list b), (.orelse, .list [mk .If gs])] := by
  obtain ⟨s, ts, g⟩ := ht
  obtain ⟨bt, tb, db, blk⟩ := blk_of hn hb
  obtain ⟨s', ts', vs', b', tb', db', f', X', h⟩ := he
  obtain ⟨h1, h2⟩ := h.blk.ext (h.body.word hP (x := "elif ") (k := .kElif) rfl) (lit_beg rfl)
  refine ⟨s, ts, b, bt, tb, db, _, _, g.body, blk, h1.comp h.ext, h2.comp h.fin, ?_, fun r r₁ hr hx => ?_⟩
  · obtain ⟨N, hN⟩ := g.prints.and blk.prints
    obtain ⟨M, hM⟩ := h.prints
    refine ⟨N + M + 1, fun n m hn hm c word => ?_⟩
    obtain ⟨m, rfl⟩ : ∃ k, m = k + 1 := ⟨m - 1, by omega⟩
    obtain ⟨h4, h5⟩ := hN n (by omega)
    have h6 := hM n m (by omega) (by omega) c "elif "
    unfold Unparse.ifStmt
    have ha : Unparse.attr .If [(.test, t), (.body, .list b), (.orelse, .list [mk .If gs])] .orelse = .ok (.list [mk .If gs]) := by
      rw [Unparse.attr_there (by decide), Unparse.attr_there (by decide), Unparse.attr_here]
    have hb' : Unparse.attr .If [(.test, t), (.body, .list b), (.orelse, .list [mk .If gs])] .body = .ok (.list b) := by
      rw [Unparse.attr_there (by decide), Unparse.attr_here]
    rw [Unparse.attr_here, hb', ha]
    simp only [Unparse.ok_bind, h4 c, h5 c]
    rw [h6]
    show Except.ok _ = _
    rw [fill_append, fill_append]
    simp [fill, spaces]
  · obtain ⟨q, rfl, hq⟩ := hx
    rw [full_at]; show pIfRest full _ = _
    unfold pIfRest
    rw [g.expr (blk.noCont _), seq_some, blk.parses, seq_some, full_at, List.cons_append]
    show seq (seq (full .ifRest _) _) _ = _
    rw [h.parses r q hr hq]; rfl

/-! ### `try` -/

/-- The head of the tokens of a handler. -/
def HandlerGood (P : Reading) (H : Host) (star : Bool) (v : Val) : Prop := ∃ f,
  (Large fun n => ∀ c : Ctx, dispatch H n { c with modes := star :: c.modes } v = .ok (f c.indent)) ∧ FinExt f ∧
  Ext P f fun r₁ r => ∃ q, r₁ = .sym .kExcept :: q ∧ handler full star q = some (v, r) ∧ isStar r₁ = star

theorem exceptBody (hP : P.Lawful) : Body P (lit "except") [.sym .kExcept] :=
  Body.keyword hP (c := 'e') (w := ['x', 'c', 'e', 'p', 't']) rfl rfl rfl

theorem except_star (hP : P.Lawful) {s ts} (h : Body P s ts) : Body P (lit "except* " ++ s) (.sym .kExcept :: .sym .star :: ts) := by
  intro t k rest ht hf
  have h1 : Lx P ('*' :: ' ' :: (s ++ t)) (.sym .star :: (ts ++ k)) rest := Lx.star' (Lx.sp (h t k rest ht hf)) (by simp) (by simp)
  have h2 : Stops P.cont ('*' :: ' ' :: (s ++ t) ++ rest) := fun c r e => by cases e; rfl
  have := Lx.append (Lx.keyword (c := 'e') (w := ['x', 'c', 'e', 'p', 't']) (s := .kExcept) hP rfl (by simp [Reading.cont, isLetter]) rfl h2 rfl) h1
  simpa [lit] using this

theorem handler_bare (hP : P.Lawful) {b : List Val} (hn : b ≠ []) (hb : ∀ s ∈ b, S P H s) :
    HandlerGood P H false (handlerOf .none .none b) := by
  obtain ⟨bt, tb, db, blk⟩ := blk_of hn hb
  obtain ⟨h1, h2⟩ := blk.ext (exceptBody hP) ⟨_, _, rfl, by decide⟩
  refine ⟨_, blk.prints.succ fun n hn c => ?_, h2, h1.mono fun r₁ r e => ⟨_, e, ?_, ?_⟩⟩
  · show Unparse.exceptHandler (dispatch H n) { c with modes := false :: c.modes } [(.type_, .none), (.name, .none), (.body, .list b)] = _
    have := hn { c with modes := false :: c.modes }
    unparsing [Unparse.exceptHandler, this, Unparse.opt, Unparse.truthy, FutureImports.truthy]
    simp [fill, spaces]
  · have h3 := blk.parses r
    obtain ⟨q, rfl⟩ := blk.head
    show seq (full .block _) _ = _
    rw [List.cons_append] at h3
    refine (congrArg (seq · _) h3).trans rfl
  · subst e
    obtain ⟨q, rfl⟩ := blk.head
    rfl

theorem handlerAs_ok (hP : P.Lawful) {b : List Val} {bt tb db} (blk : Blk P H b bt tb db) {n : Val} (hn : OptName P n) :
    ∃ s ts, Tail P s ts ∧ (Unparse.opt n (fun v => do return lit " as " ++ (← Unparse.write v)) = .ok s) ∧
      (∀ r, NoCont 0 (ts ++ (tb ++ r))) ∧
      ∀ t r, handlerAs full t (ts ++ (tb ++ closing db r)) = some (handlerOf t n b, r) := by
  rcases hn with rfl | ⟨x, hx, rfl⟩
  · refine ⟨[], [], Tail.nil, rfl, fun r => blk.noCont r, fun t r => ?_⟩
    have h3 := blk.parses r
    obtain ⟨q, rfl⟩ := blk.head
    show seq (full .block _) _ = _
    rw [List.cons_append] at h3
    refine (congrArg (seq · _) h3).trans rfl
  · have hb : Body P (lit "as " ++ x.toList) [.sym .kAs, .name x] := (Body.name hP hx).word hP (k := .kAs) rfl
    refine ⟨lit " as " ++ x.toList, [.sym .kAs, .name x], Tail.cons hb.sp rfl, ?_, fun r => NoCont.none rfl, fun t r => ?_⟩
    · obtain ⟨⟨c, w, e, -⟩, -⟩ := hx
      unfold Unparse.opt
      rw [if_pos (str_nonempty ⟨c, w, e⟩)]; rfl
    · show seq (full .block (tb ++ closing db r)) _ = _
      rw [blk.parses r]; rfl

theorem handler_typed (hP : P.Lawful) {star : Bool} {t m : Val} {b : List Val} (ht : G P H t) (hx : OptName P m) (hn : b ≠ [])
    (hb : ∀ s ∈ b, S P H s) : HandlerGood P H star (handlerOf t m b) := by
  obtain ⟨x, xt, g⟩ := ht
  obtain ⟨bt, tb, db, blk⟩ := blk_of hn hb
  obtain ⟨s, ts, g1, g2, g3, g4⟩ := handlerAs_ok hP blk hx
  have hbody := g.body.tail g1
  simp only [Unparse.pure_ok] at g2
  have hne : ∀ {sy : Sym} {r r'}, atomStart (.sym sy) = false → xt ++ r ≠ .sym sy :: r' := fun h => g.neSym h _ _
  cases star with
  | false =>
    obtain ⟨h1, h2⟩ := blk.ext (hbody.word hP (x := "except ") (k := .kExcept) rfl) (lit_beg rfl)
    refine ⟨_, (g.prints.and blk.prints).succ fun n hn c => ?_, h2, h1.mono fun r₁ r e => ⟨_, e, ?_, ?_⟩⟩
    · obtain ⟨h3, h4⟩ := hn
      show Unparse.exceptHandler (dispatch H n) { c with modes := false :: c.modes } [(.type_, t), (.name, m), (.body, .list b)] = _
      have h4 := h4 { c with modes := false :: c.modes }
      have h3 := h3 { c with modes := false :: c.modes }
      simp [Unparse.exceptHandler, Unparse.attr_here, Unparse.attr_there, Unparse.ok_bind, Unparse.pure_ok, h3, h4, g2]
      simp [Unparse.opt, g.truthy, h3, Unparse.ok_bind, fill, spaces, lit]
    · have h5 : full .expr (xt ++ (ts ++ (tb ++ closing db r))) = some (t, ts ++ (tb ++ closing db r)) := g.expr (g3 _)
      show handler full false (xt ++ ts ++ (tb ++ closing db r)) = _
      rw [List.append_assoc]
      unfold handler
      split
      · rename_i e; exact absurd e (hne rfl)
      · rename_i e; exact absurd e (hne rfl)
      · rw [if_neg (by decide), h5, seq_some, g4]
    · subst e
      show isStar (.sym .kExcept :: (xt ++ ts ++ (tb ++ closing db r))) = false
      rw [List.append_assoc]
      unfold isStar
      split
      · rename_i e; injection e with _ e; exact absurd e (hne rfl)
      · rfl
  | true =>
    obtain ⟨h1, h2⟩ := blk.ext (except_star hP hbody) (lit_beg rfl)
    refine ⟨_, (g.prints.and blk.prints).succ fun n hn c => ?_, h2, h1.mono fun r₁ r e => ⟨_, e, ?_, ?_⟩⟩
    · obtain ⟨h3, h4⟩ := hn
      show Unparse.exceptHandler (dispatch H n) { c with modes := true :: c.modes } [(.type_, t), (.name, m), (.body, .list b)] = _
      have h4 := h4 { c with modes := true :: c.modes }
      have h3 := h3 { c with modes := true :: c.modes }
      simp [Unparse.exceptHandler, Unparse.attr_here, Unparse.attr_there, Unparse.ok_bind, Unparse.pure_ok, h3, h4, g2]
      simp [Unparse.opt, g.truthy, h3, Unparse.ok_bind, fill, spaces, lit]
    · have h5 : full .expr (xt ++ (ts ++ (tb ++ closing db r))) = some (t, ts ++ (tb ++ closing db r)) := g.expr (g3 _)
      show seq (full .expr (xt ++ ts ++ (tb ++ closing db r))) _ = _
      rw [List.append_assoc, h5, seq_some, g4]
    · subst e; rfl

theorem handlers_ok {star : Bool} : ∀ {hs : List Val}, (∀ h ∈ hs, HandlerGood P H star h) → ∃ f,
    (Large fun n => ∀ c : Ctx, Unparse.concat (dispatch H n { c with modes := star :: c.modes }) hs = .ok (f c.indent)) ∧ FinExt f ∧
    Ext P f fun r₁ r => (∀ r', r ≠ .sym .kExcept :: r') → full (.handlers star) r₁ = some (.list hs, r) ∧ (hs ≠ [] → isStar r₁ = star) ∧
      (hs = [] → r₁ = r)
  | [], _ => ⟨fun _ => [], Large.all fun _ _ => rfl, FinExt.nil, Ext.nil.mono fun r₁ r e hr => ⟨by
      subst e
      rw [full_at]; show pHandlers full star _ = _
      unfold pHandlers
      split
      · exact absurd rfl (hr _)
      · rfl, fun h => absurd rfl h, fun _ => e⟩⟩
  | h :: hs, hh => by
    obtain ⟨f, h1, h2, h3⟩ := hh h (by simp)
    obtain ⟨f', g1, g2, g3⟩ := handlers_ok (hs := hs) fun x hx => hh x (by simp [hx])
    refine ⟨_, (h1.and g1).mono fun n ⟨h4, h5⟩ c => concat_cons (h4 c) (h5 c), h2.comp g2, (h3.comp g3).mono fun r₁ r hx hr => ?_⟩
    obtain ⟨q, ⟨q', rfl, h6, h7⟩, h8⟩ := hx
    obtain ⟨h9, -⟩ := h8 hr
    refine ⟨?_, fun _ => h7, fun h => nomatch h⟩
    rw [full_at]; show seq (handler full star q') _ = _
    rw [h6, seq_some, h9]; rfl

theorem s_try (hP : P.Lawful) {star : Bool} {b hs e f : List Val} (hn : b ≠ []) (hb : ∀ s ∈ b, S P H s) (hh : ∀ h ∈ hs, HandlerGood P H star h)
    (he : ∀ s ∈ e, S P H s) (hf : ∀ s ∈ f, S P H s) (hc : hs ≠ [] ∨ (star = false ∧ e = [] ∧ f ≠ [])) : S P H (tryOf star b hs e f) := by
  obtain ⟨bt, tb, db, blk⟩ := blk_of hn hb
  obtain ⟨ft, f1, f2, f3⟩ := blockIf_ext hP (x := "finally") (kw := .kFinally) rfl hf
  obtain ⟨et, e1, e2, e3⟩ : ∃ et, (Large fun n => ∀ c, Unparse.blockIf (dispatch H n) c "else" (.list e) = .ok (et c.indent)) ∧ FinExt et ∧
      Ext P et fun r₁ r => (e = [] ∧ r₁ = r) ∨ ∃ q, r₁ = .sym .kElse :: q ∧ e ≠ [] ∧ full .block q = some (.list e, r) := by
    by_cases hE : e = []
    · subst hE
      exact ⟨fun _ => [], Large.all fun _ _ => rfl, FinExt.nil, Ext.nil.mono fun _ _ e => .inl ⟨rfl, e⟩⟩
    · obtain ⟨et, e1, e2, e3⟩ := blockIf_ext hP (x := "else") (kw := .kElse) rfl he
      refine ⟨et, e1, e2, e3.mono fun _ _ h => h.imp id fun ⟨q, h1, h2⟩ => ⟨q, h1, hE, h2⟩⟩
  obtain ⟨ht, h1, h2, h3⟩ := handlers_ok hh
  refine compound_s (h := lit "try") (((blk.prints.and h1).and (e1.and f1)).succ fun n ⟨⟨h4, h5⟩, h6, h7⟩ c => ?_)
    (Body.keyword hP (c := 't') (w := ['r', 'y']) rfl rfl rfl) ⟨_, _, rfl, by decide⟩ blk (h3.comp (e3.comp f3)) (h2.comp (e2.comp f2))
    ⟨_, _, rfl, by decide, rfl⟩ fun r r₁ hr hx => ?_
  · have hx : ∀ {k}, Unparse.tryStmt (dispatch H n) c star k
        [(.body, .list b), (.handlers, .list hs), (.orelse, .list e), (.finalbody, .list f)] =
        .ok (fill c (lit "try" ++ bt c.indent ++ (ht c.indent ++ (et c.indent ++ ft c.indent)))) := by
      intro k
      unparsing [Unparse.tryStmt, h4 c, h5 c, h6 c, h7 c, fill_append]
    cases star with
    | false => exact hx
    | true => exact hx
  · obtain ⟨q1, hx1, q2, hx2, hx3⟩ := hx
    have hq2 : ∀ {sy r'}, clauseTok (.sym sy) = true → sy ≠ .kFinally → q2 ≠ .sym sy :: r' := by
      intro sy r' h h'
      rcases hx3 with ⟨-, rfl⟩ | ⟨q, rfl, -⟩
      · exact hr.ne h
      · intro e; cases e; exact h' rfl
    have hq1 : ∀ {r'}, q1 ≠ .sym .kExcept :: r' := by
      intro r'
      rcases hx2 with ⟨-, rfl⟩ | ⟨q, rfl, -⟩
      · exact hq2 rfl (by decide)
      · intro e; cases e
    obtain ⟨h8, h9, h10⟩ := hx1 fun r' => hq1
    rw [full_at]; show tryRest full (tb ++ closing db r₁) = _
    unfold tryRest
    rw [blk.parses, seq_some]
    have hst : isStar r₁ = star := by
      rcases hc with hne | ⟨rfl, rfl, hne⟩
      · exact h9 hne
      · by_cases hs' : hs = []
        · have := h10 hs'
          subst this
          rcases hx2 with ⟨-, rfl⟩ | ⟨q, rfl, -⟩
          · rcases hx3 with ⟨e, -⟩ | ⟨q, rfl, -⟩
            · exact absurd e hne
            · rfl
          · rfl
        · exact h9 hs'
    rw [hst, h8, seq_some]
    show tryEnd full star b hs q1 = _
    unfold tryEnd
    by_cases hs' : hs = []
    · subst hs'
      rcases hc with hc | ⟨rfl, rfl, hne⟩
      · exact absurd rfl hc
      · rw [if_pos (show ([] : List Val).isEmpty = true from rfl)]
        rcases hx2 with ⟨-, rfl⟩ | ⟨q, rfl, hne', hq⟩
        · rcases hx3 with ⟨e, -⟩ | ⟨q, rfl, hq⟩
          · exact absurd e hne
          · show seq (full .block q) _ = _
            rw [hq]; rfl
        · exact absurd rfl hne'
    · rw [if_neg (by simpa using hs'), orelse_parse (hx2.imp id fun ⟨q, h1, _, h2⟩ => ⟨q, h1, h2⟩) fun r' => hq2 rfl (by decide), seq_some, finals_parse hx3 fun r' => hr.ne rfl]; rfl

end Mcpyrate.PyText
