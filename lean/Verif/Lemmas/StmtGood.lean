import Verif.Lemmas.StmtNewline
/-
Statements that the unparser writes so that the parser reads them back, wherever they occur.
-/
namespace Mcpyrate.PyText
open Py
open Unparse (Host Large Ctx lit interleave dispatch fill)

variable {P : Reading} {H : Host}

/-- What would go on with a statement. -/
def clauseTok : Tok → Bool
  | .sym .kElse | .sym .kElif | .sym .kExcept | .sym .kFinally | .indent => true
  | _ => false

def NoClause (r : List Tok) : Prop := ∀ t r', r = t :: r' → clauseTok t = false

theorem NoClause.nil : NoClause [] := fun _ _ e => nomatch e
theorem NoClause.cons {t r} (h : clauseTok t = false) : NoClause (t :: r) := fun _ _ e => by cases e; exact h
theorem NoClause.ne {s r r'} (h : NoClause r) (hs : clauseTok (.sym s) = true) : r ≠ .sym s :: r' := by
  rintro rfl; rw [h _ _ rfl] at hs; exact nomatch hs

/-- Ends with something. -/
def Finishes (s : Nat → Str) : Prop := ∀ i, ∃ w c, s i = w ++ [c] ∧ Dialects.isSpace c = false

/-- The end of a line and of `d` blocks, and the tokens after that. -/
def closing (d : Nat) (r : List Tok) : List Tok := .newline :: (List.replicate d .dedent ++ r)

theorem closing_succ {d r} : closing (d + 1) r = closing d (.dedent :: r) := by
  unfold closing
  rw [List.replicate_succ', List.append_assoc]; rfl

/-- The statement is written as these lines, which are read as these tokens, which are parsed as the statement. -/
structure GoodS (P : Reading) (H : Host) (v : Val) (pre : Str) (core : Nat → Str) (toks : List Tok) (d : Nat) : Prop where
  prints : Large fun n => ∀ c, dispatch H n c v = .ok (pre ++ '\n' :: (spaces c.indent ++ core c.indent))
  pre : pre = [] ∨ pre = ['\n']
  lines : Lines P core toks d
  starts : Starts core
  finishes : Finishes core
  head : ∃ t r, toks = t :: r ∧ t ≠ .dedent ∧ clauseTok t = false
  parses : ∀ r, NoClause r → full .stmt (toks ++ closing d r) = some (v, r)

def S (P : Reading) (H : Host) (v : Val) : Prop := ∃ pre core toks d, GoodS P H v pre core toks d

/-- The same for one or more statements. -/
structure GoodB (P : Reading) (H : Host) (vs : List Val) (pre : Str) (core : Nat → Str) (toks : List Tok) (d : Nat) : Prop where
  prints : Large fun n => ∀ c, Unparse.concat (dispatch H n c) vs = .ok (pre ++ '\n' :: (spaces c.indent ++ core c.indent))
  pre : pre = [] ∨ pre = ['\n']
  lines : Lines P core toks d
  starts : Starts core
  finishes : Finishes core
  head : ∃ t r, toks = t :: r ∧ t ≠ .dedent ∧ clauseTok t = false
  parses : ∀ nt r l r', nt = .stmts ∨ nt = .file → NoClause r → full nt r = some (.list l, r') →
    full nt (toks ++ closing d r) = some (.list (vs ++ l), r')

theorem concat_cons {f : Val → Unparse.R} {v vs s t} (h1 : f v = .ok s) (h2 : Unparse.concat f vs = .ok t) :
    Unparse.concat f (v :: vs) = .ok (s ++ t) := by
  unfold Unparse.concat at *
  cases h : Unparse.texts f vs with
  | error e => rw [h] at h2; exact nomatch h2
  | ok ss =>
    rw [h] at h2
    cases h2
    simp [Unparse.texts, h1, h, Unparse.ok_bind, Unparse.pure_ok]

theorem full_more {nt t r} (hnt : nt = .stmts ∨ nt = .file) (ht : t ≠ .dedent) :
    full nt (t :: r) = seq (full .stmt (t :: r)) fun s r => seq (full nt r) fun l r => some (cons s l, r) := by
  rcases hnt with rfl | rfl
  · rw [full_at]; show pStmts full _ = _
    unfold pStmts
    split
    · rename_i e; cases e; exact absurd rfl ht
    · rfl
  · rw [full_at]; rfl

theorem GoodS.one {v pre core toks d} (h : GoodS P H v pre core toks d) : GoodB P H [v] pre core toks d where
  prints := h.prints.mono fun n hn c => by
    have := concat_cons (vs := []) (t := []) (hn c) rfl
    simpa using this
  pre := h.pre
  lines := h.lines
  starts := h.starts
  finishes := h.finishes
  head := h.head
  parses nt r l r' hnt hr hl := by
    have hp := h.parses r hr
    obtain ⟨t, q, rfl, ht, -⟩ := h.head
    rw [List.cons_append] at hp ⊢
    rw [full_more hnt ht, hp, seq_some, hl]; rfl

theorem GoodS.cons {v pre core toks d vs pre' core' toks' d'} (h : GoodS P H v pre core toks d) (h' : GoodB P H vs pre' core' toks' d') :
    GoodB P H (v :: vs) pre (fun i => core i ++ (pre' ++ '\n' :: (spaces i ++ core' i)))
      (toks ++ .newline :: (List.replicate d .dedent ++ toks')) d' where
  prints := (h.prints.and h'.prints).mono fun n ⟨hn, hn'⟩ c => by
    rw [concat_cons (hn c) (hn' c)]; simp
  pre := h.pre
  lines := Lines.next h'.pre h.lines h'.lines h'.starts
  starts i := by obtain ⟨c, r, e, hc⟩ := h.starts i; exact ⟨c, r ++ (pre' ++ '\n' :: (spaces i ++ core' i)), by simp [e], hc⟩
  finishes i := by
    obtain ⟨w, c, e, hc⟩ := h'.finishes i
    exact ⟨core i ++ (pre' ++ '\n' :: (spaces i ++ w)), c, by simp [e], hc⟩
  head := by obtain ⟨t, r, rfl, ht⟩ := h.head; exact ⟨t, _, rfl, ht⟩
  parses nt r l r' hnt hr hl := by
    have h1 := h'.parses nt r l r' hnt hr hl
    have h2 := h.parses (toks' ++ closing d' r) (by
      obtain ⟨t, q, rfl, -, ht⟩ := h'.head
      exact NoClause.cons ht)
    obtain ⟨t, q, rfl, ht, -⟩ := h.head
    have e : t :: q ++ .newline :: (List.replicate d .dedent ++ toks') ++ closing d' r = t :: q ++ closing d (toks' ++ closing d' r) := by
      simp [closing]
    rw [e]
    rw [List.cons_append] at h2 ⊢
    rw [full_more hnt ht, h2, seq_some, h1]; rfl

theorem stmts_good : ∀ {vs : List Val}, vs ≠ [] → (∀ v ∈ vs, S P H v) → ∃ pre core toks d, GoodB P H vs pre core toks d
  | [], h, _ => absurd rfl h
  | [v], _, h => by
    obtain ⟨pre, core, toks, d, g⟩ := h v (by simp)
    exact ⟨_, _, _, _, g.one⟩
  | v :: w :: vs, _, h => by
    obtain ⟨pre, core, toks, d, g⟩ := h v (by simp)
    obtain ⟨pre', core', toks', d', g'⟩ := stmts_good (vs := w :: vs) (by simp) fun x hx => h x (by simp_all)
    exact ⟨_, _, _, _, g.cons g'⟩

/-- The colon and the block after it. -/
structure Blk (P : Reading) (H : Host) (vs : List Val) (text : Nat → Str) (toks : List Tok) (d : Nat) : Prop where
  prints : Large fun n => ∀ c, Unparse.block (dispatch H n) c (.list vs) = .ok (text c.indent)
  lines : Lines P text toks d
  colon : ∀ i, ∃ r, text i = ':' :: r
  finishes : Finishes text
  parses : ∀ r, full .block (toks ++ closing d r) = some (.list vs, r)
  head : ∃ r, toks = .sym .colon :: r

theorem blk_of {vs : List Val} (hne : vs ≠ []) (h : ∀ v ∈ vs, S P H v) : ∃ text toks d, Blk P H vs text toks d := by
  obtain ⟨pre, core, toks, d, g⟩ := stmts_good hne h
  refine ⟨_, _, _, ?_, g.lines.block g.pre g.starts, fun i => ⟨_, rfl⟩, fun i => ?_, fun r => ?_, _, rfl⟩
  · exact g.prints.mono fun n hn c => by
      show (do return ':' :: (← Unparse.concat (dispatch H n c.enter) vs)) = _
      rw [hn c.enter]; rfl
  · obtain ⟨w, c, e, hc⟩ := g.finishes (i + 1)
    exact ⟨':' :: (pre ++ '\n' :: (spaces (i + 1) ++ w)), c, by simp [e], hc⟩
  · have h1 := g.parses .stmts (.dedent :: r) [] r (.inl rfl) (NoClause.cons rfl) (by rw [full_at]; rfl)
    obtain ⟨t, q, rfl, ht, -⟩ := g.head
    rw [closing_succ]
    rw [List.cons_append, full_more (.inl rfl) ht, List.append_nil] at h1
    rw [full_at]; exact h1

/-- After the colon. -/
theorem Blk.after {vs text toks d} (h : Blk P H vs text toks d) (i : Nat) (rest : Str) : After (text i ++ rest) := by
  obtain ⟨r, e⟩ := h.colon i
  rw [e]; exact After.cons rfl

/-- A header with its block. -/
theorem Blk.header {vs text toks d s ts} (h : Blk P H vs text toks d) (hb : Body P s ts) :
    Lines P (fun i => s ++ text i) (ts ++ toks) d := hb.before h.lines h.after

/-- Followed by a colon, an expression is complete. -/
theorem Blk.noCont {vs text toks d L} (h : Blk P H vs text toks d) (r : List Tok) : NoCont L (toks ++ r) := by
  obtain ⟨q, rfl⟩ := h.head
  exact NoCont.none rfl

/-! ### Simple statements -/

/-- The tokens that begin a compound statement. -/
def compoundTok : Tok → Bool
  | .sym .kIf | .sym .kWhile | .sym .kFor | .sym .kAsync | .sym .kWith | .sym .kTry | .sym .at | .sym .kDef | .sym .kClass => true
  | _ => false

theorem stmt_simple {t r} (h : compoundTok t = false) (hn : ∀ x, t ≠ .name x) : full .stmt (t :: r) = seq (full .simple (t :: r)) line := by
  rw [full_at]; show pStmt full _ = _
  unfold pStmt
  split <;> first | rfl | (rename_i e; cases e; first | exact absurd rfl (hn _) | exact nomatch h)

theorem stmt_name {x r} : full .stmt (.name x :: r) = nameLine full x r := by rw [full_at]; rfl

/-- Nothing goes on after a name with another name. -/
theorem simple_names {x y r} : full .simple (.name x :: .name y :: r) = none := by
  have h0 : full .primary ([.name x] ++ .name y :: r) = some (name x, .name y :: r) := by
    rw [full_at]; show seq (full .atom _) _ = _
    rw [show full .atom ([.name x] ++ .name y :: r) = some (name x, .name y :: r) by rw [full_at]; rfl, seq_some]
    exact primRest_stop (NoCont.none rfl)
  have h1 : full .expr (.name x :: .name y :: r) = some (name x, .name y :: r) :=
    lift (L := 0) (K := 14) (Nat.le_refl _) (by decide) h0 ⟨_, _, rfl, Nat.le_refl _⟩ (NoCont.none rfl)
  have h2 : full .elem (.name x :: .name y :: r) = some (name x, .name y :: r) := by
    rw [full_at]; exact h1
  rw [full_at]; show seq (full .elem (.name x :: .name y :: r)) _ = _
  rw [h2]; rfl

theorem opensBlock_line {r} : ∀ {ts : List Tok}, Tok.newline ∉ ts → opensBlock (ts ++ .newline :: r) = decide (r.head? = some .indent)
  | [], _ => rfl
  | t :: ts, h => by
    rw [List.cons_append, opensBlock]
    · exact opensBlock_line fun hm => h (by simp [hm])
    · rintro rfl; exact h (by simp)

theorem name_line {x q r v} (hq : Tok.newline ∉ q) (hr : NoClause r)
    (h : full .simple (.name x :: (q ++ .newline :: r)) = some (v, .newline :: r)) : nameLine full x (q ++ .newline :: r) = some (v, r) := by
  have ho : opensBlock (q ++ .newline :: r) = false := by
    rw [opensBlock_line hq, decide_eq_false_iff_not]
    cases r with
    | nil => exact fun e => nomatch e
    | cons t r => intro e; cases e; exact nomatch hr _ _ rfl
  unfold nameLine
  rw [if_neg (by rw [ho]; exact fun e => nomatch e.2)]
  split
  · rename_i e; rw [e, simple_names] at h; exact nomatch h
  · rw [h]; rfl

/-- What begins a simple statement. -/
def simpleTok (t : Tok) : Bool := !compoundTok t && !clauseTok t && t != .dedent

theorem simple_s {v : Val} {s ts} (prints : Large fun n => ∀ c, dispatch H n c v = .ok (fill c s)) (body : Body P s ts)
    (starts : ∃ c r, s = c :: r ∧ Dialects.isSpace c = false) (ends : ∃ w c, s = w ++ [c] ∧ Dialects.isSpace c = false)
    (head : ∃ t r, ts = t :: r ∧ simpleTok t = true)
    (parses : ∀ r, full .simple (ts ++ .newline :: r) = some (v, .newline :: r)) : S P H v := by
  refine ⟨[], fun _ => s, ts, 0, prints, .inl rfl, body.lines, fun _ => starts, fun _ => ends, ?_, fun r hr => ?_⟩
  · obtain ⟨t, r, e, h⟩ := head
    simp only [simpleTok, Bool.and_eq_true, Bool.not_eq_true', bne_iff_ne] at h
    exact ⟨t, r, e, h.2, h.1.2⟩
  · have hp := parses r
    obtain ⟨t, q, rfl, h⟩ := head
    simp only [simpleTok, Bool.and_eq_true, Bool.not_eq_true'] at h
    show full .stmt (t :: q ++ .newline :: r) = _
    rw [List.cons_append] at hp ⊢
    by_cases hn : ∃ x, t = .name x
    · obtain ⟨x, rfl⟩ := hn
      rw [stmt_name]
      exact name_line (fun hm => body.noNewline (by simp [hm])) hr hp
    · rw [stmt_simple h.1.1 fun x e => hn ⟨x, e⟩, hp]; rfl

end Mcpyrate.PyText
