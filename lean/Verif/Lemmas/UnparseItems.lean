import Verif.Lemmas.UnparseExpr
/-
Lists of items in brackets, operators with many operands, comprehensions.
-/
namespace Mcpyrate.PyText
open Py
open Unparse (Host Prints PrintsL PrintsCmp PrintsPairs lit interleave isIntConstant tupleText)

variable {P : Reading} {H : Host}

/-- What may follow an expression, except for a dot and `=`. -/
def afterChar (c : Char) : Bool := followChar c && c != '.' && c != '='

def After (t : Str) : Prop := ∀ c r, t = c :: r → afterChar c = true

theorem After.cons {c r} (h : afterChar c = true) : After (c :: r) := fun _ _ e => by cases e; exact h
theorem After.follow {t} (h : After t) : Follow t := fun c r e => by
  have := h c r e; simp only [afterChar, Bool.and_eq_true] at this; exact this.1.1
theorem After.noDot {t} (h : After t) : t.head? ≠ some '.' := fun e => by
  cases t with
  | nil => exact nomatch e
  | cons c r => cases e; exact absurd (h _ _ rfl) (by decide)
theorem After.noEq {t} (h : After t) : t.head? ≠ some '=' := fun e => by
  cases t with
  | nil => exact nomatch e
  | cons c r => cases e; exact absurd (h _ _ rfl) (by decide)

/-- Something that can be in front of what follows an expression. -/
def Body (P : Reading) (s : Str) (ts : List Tok) : Prop :=
  ∀ t k rest, Lx P t k rest → After (t ++ rest) → Lx P (s ++ t) (ts ++ k) rest

/-- Text that may come after an expression, and be followed by more. -/
structure Tail (P : Reading) (s : Str) (ts : List Tok) : Prop where
  lx : Body P s ts
  follow : ∀ t, After t → After (s ++ t)

theorem Tail.nil : Tail P [] [] := ⟨fun _ _ _ h _ => h, fun _ h => h⟩

theorem Body.tail {s s' ts ts'} (h : Body P s ts) (h' : Tail P s' ts') : Body P (s ++ s') (ts ++ ts') := by
  intro t k rest ht hf
  have h1 := h'.lx t k rest ht hf
  have h2 := h'.follow _ hf
  rw [← List.append_assoc] at h2
  have := h _ _ _ h1 h2
  rwa [List.append_assoc, List.append_assoc]

theorem Tail.append {s s' ts ts'} (h : Tail P s ts) (h' : Tail P s' ts') : Tail P (s ++ s') (ts ++ ts') :=
  ⟨h.lx.tail h', fun t hf => by rw [List.append_assoc]; exact h.follow _ (h'.follow t hf)⟩

theorem Good.body {v s ts} (h : Good P H v s ts) : Body P s ts := fun _ _ _ ht hf => h.lx ht hf.follow hf.noDot

theorem Tail.cons {c : Char} {s ts} (h : Body P (c :: s) ts) (hc : afterChar c = true) : Tail P (c :: s) ts :=
  ⟨h, fun _ _ => After.cons hc⟩

theorem interleave_cons (sep x : Str) : ∀ xs, interleave sep (x :: xs) = x ++ xs.flatMap (sep ++ ·)
  | [] => by simp [interleave]
  | y :: r => by rw [interleave, interleave_cons sep y r, List.flatMap_cons]; simp

/-! ### Items -/

/-- An item of a list. -/
structure Piece (P : Reading) (nt : NT) (close : Sym) (v : Val) (s : Str) (ts : List Tok) : Prop where
  body : Body P s ts
  parses : ∀ sy r, sy = .comma ∨ sy = close → full nt (ts ++ .sym sy :: r) = some (v, .sym sy :: r)
  head : ∃ t r, ts = t :: r ∧ t ≠ .sym close

/-- The items after the first one, each after a comma. -/
inductive Items (P : Reading) (nt : NT) (close : Sym) : List Val → List Str → List Tok → Prop
  | nil : Items P nt close [] [] []
  | cons {v s ts vs ss us} (h : Piece P nt close v s ts) (hs : Items P nt close vs ss us) :
      Items P nt close (v :: vs) (s :: ss) (.sym .comma :: (ts ++ us))

theorem Items.tail {nt close vs ss us} (h : Items P nt close vs ss us) : Tail P (ss.flatMap (lit ", " ++ ·)) us := by
  induction h with
  | nil => exact Tail.nil
  | @cons v s ts vs ss us h _ ih =>
    have hb := h.body.tail ih
    rw [List.flatMap_cons]
    refine Tail.cons (c := ',') (s := ' ' :: s ++ _) (fun t k rest ht hf => ?_) rfl
    exact Lx.comma' (Lx.sp (hb t k rest ht hf))

theorem items_none {nt close r} : full (.items nt close) (.sym close :: r) = some (.list [], r) := by
  rw [full_at]; show pItems full nt close _ = _
  unfold pItems
  rw [List.head?_cons, if_pos rfl]; rfl

theorem items_parse {nt close v s ts vs ss us r} (hc : close ≠ .comma) (h : Piece P nt close v s ts)
    (hs : Items P nt close vs ss us) : full (.items nt close) (ts ++ us ++ .sym close :: r) = some (.list (v :: vs), r) := by
  induction hs generalizing v s ts with
  | nil =>
    rw [full_at]; show pItems full nt close _ = _
    obtain ⟨t, r', rfl, ht⟩ := h.head
    have hp := h.parses close r (.inr rfl)
    unfold pItems
    rw [if_neg (by simpa using ht), List.append_nil, hp, seq_some]
    show itemsRest full nt close v _ = _
    unfold itemsRest
    split
    · rename_i e; cases e; exact absurd rfl hc
    · rename_i e; cases e; rw [if_pos rfl]
    · rename_i h; exact absurd rfl (h _ _)
  | @cons w s' ts' vs ss us h' _ ih =>
    have ih := ih h'
    rw [full_at]; show pItems full nt close _ = _
    obtain ⟨t, r', rfl, ht⟩ := h.head
    have hp := h.parses .comma (ts' ++ us ++ .sym close :: r) (.inl rfl)
    unfold pItems
    rw [if_neg (by simpa using ht)]
    have e : t :: r' ++ .sym .comma :: (ts' ++ us) ++ .sym close :: r = t :: r' ++ .sym .comma :: (ts' ++ us ++ .sym close :: r) := by simp
    rw [e, hp, seq_some]
    show seq (full (.items nt close) _) _ = _
    rw [ih]; rfl

/-- An item that is a tree. -/
def IsItem (P : Reading) (H : Host) (nt : NT) (close : Sym) (v : Val) : Prop := ∃ s ts, Prints H v s ∧ Piece P nt close v s ts

theorem items_of {nt close} : ∀ {vs : List Val}, (∀ v ∈ vs, IsItem P H nt close v) →
    ∃ ss us, PrintsL H vs ss ∧ Items P nt close vs ss us
  | [], _ => ⟨[], [], PrintsL.nil, .nil⟩
  | v :: vs, h => by
    obtain ⟨s, ts, hp, hi⟩ := h v (by simp)
    obtain ⟨ss, us, hps, his⟩ := items_of (vs := vs) fun w hw => h w (by simp [hw])
    exact ⟨_, _, PrintsL.cons hp hps, .cons hi his⟩

/-- `*a`, or an expression. -/
def Elem (P : Reading) (H : Host) (v : Val) : Prop := G P H v ∨ ∃ w, v = starred w ∧ G P H w

theorem atomStart_ne {t : Tok} (h : atomStart t = true) {s : Sym} (hs : atomStart (.sym s) = false) : t ≠ .sym s := by
  rintro rfl; rw [h] at hs; exact nomatch hs

/-- How an element begins. -/
structure ElemStart (ts : List Tok) : Prop where
  head : ∃ t r, ts = t :: r ∧ (atomStart t = true ∨ t = .sym .star)
  look : ∀ rest, (∀ r, rest ≠ .sym .colonEq :: r) → NotNamed (ts ++ rest)

theorem ElemStart.ne {ts} (h : ElemStart ts) {s : Sym} (hs : atomStart (.sym s) = false) (hs' : s ≠ .star) (rest r : List Tok) :
    ts ++ rest ≠ .sym s :: r := by
  obtain ⟨t, r', rfl, ht⟩ := h.head
  intro e
  simp only [List.cons_append, List.cons.injEq] at e
  rcases ht with ht | rfl
  · exact atomStart_ne ht hs e.1
  · exact hs' (by simpa using e.1.symm)

theorem Good.starBody {w s ts} (g : Good P H w s ts) : Body P ('*' :: s) (.sym .star :: ts) := by
  intro t k rest ht hf
  refine Lx.star' (g.body _ _ _ ht hf) ?_ ?_
  · show (s ++ t ++ rest).head? ≠ _; rw [List.append_assoc]; exact g.next _ (by simp)
  · show (s ++ t ++ rest).head? ≠ _; rw [List.append_assoc]; exact g.next _ (by simp)

theorem Elem.first {v} (h : Elem P H v) : ∃ s ts, Prints H v s ∧ ElemStart ts ∧ Body P s ts ∧
    ∀ rest, NoCont 0 rest → full .elem (ts ++ rest) = some (v, rest) := by
  rcases h with ⟨s, ts, g⟩ | ⟨w, rfl, s, ts, g⟩
  · obtain ⟨t, r, e, ht⟩ := g.head
    exact ⟨s, ts, g.prints, ⟨⟨t, r, e, .inl ht⟩, fun _ h => g.notNamed h⟩, g.body, fun rest h => g.elem h⟩
  · refine ⟨_, .sym .star :: ts, prints_cast (Prints.starred g.prints) (s' := '*' :: s) (by simp),
      ⟨⟨_, _, rfl, .inr rfl⟩, fun _ _ _ _ e => nomatch e⟩, g.starBody, fun rest h => ?_⟩
    rw [full_at, List.cons_append]; show seq (full (.bin 0) _) _ = _
    rw [g.bin0 (h.mono (by decide))]; rfl

theorem Elem.item {v} (h : Elem P H v) {cl : Sym} (hc : contLevel (.sym cl) = none) (hc' : atomStart (.sym cl) = false)
    (hs : cl ≠ .star) : IsItem P H .elem cl v := by
  have hn : ∀ {L sy r}, sy = Sym.comma ∨ sy = cl → NoCont L (.sym sy :: r) := by
    rintro L sy r (rfl | rfl)
    · exact NoCont.none rfl
    · exact NoCont.none hc
  obtain ⟨s, ts, h1, h2, h3, h4⟩ := h.first
  obtain ⟨t, r, e, ht⟩ := h2.head
  refine ⟨s, ts, h1, h3, fun sy r h => h4 _ (hn h), t, r, e, ?_⟩
  have := h2.ne hc' hs [] r
  rw [List.append_nil, e] at this
  simpa using this

theorem paren_first {v ts rest} (h : ElemStart ts) (hp : full .elem (ts ++ rest) = some (v, rest))
    (hr : ∀ r, rest ≠ .sym .colonEq :: r) : full .paren (ts ++ rest) = parenRest full v rest := by
  rw [paren_elem (h.ne rfl (by decide) _) (h.ne rfl (by decide) _) (h.look _ hr), hp]; rfl

theorem brack_first {v ts rest} (h : ElemStart ts) (hp : full .elem (ts ++ rest) = some (v, rest)) :
    full .brack (ts ++ rest) = brackRest full v rest := by
  have h1 := h.ne (s := .rbrack) rfl (by decide) rest
  rw [full_at]; show pBrack full _ = _
  unfold pBrack
  split
  · rename_i e; exact absurd e (h1 _)
  · rw [hp]; rfl

theorem brace_first {v ts rest} (h : ElemStart ts) (hp : full .elem (ts ++ rest) = some (v, rest)) :
    full .brace (ts ++ rest) = braceRest full v rest := by
  have h1 := h.ne (s := .rbrace) rfl (by decide) rest
  have h2 := h.ne (s := .starStar) rfl (by decide) rest
  rw [full_at]; show pBrace full _ = _
  unfold pBrace
  split
  · rename_i e; exact absurd e (h1 _)
  · rename_i e; exact absurd e (h2 _)
  · rw [hp]; rfl

theorem g_tuple {xs : List Val} (h : ∀ x ∈ xs, Elem P H x) : G P H (tuple xs) := by
  have cls : IsExprNode (tuple xs) := ⟨.Tuple, _, rfl, rfl, by decide, by decide⟩
  cases xs with
  | nil =>
    exact good_paren (s := []) (ts := []) (prints_cast (Prints.tuple PrintsL.nil) (by simp [lit, tupleText, interleave]))
      (fun _ => Lx.rpar' Lx.nil) cls fun rest => by rw [full_at]; rfl
  | cons x xs =>
    obtain ⟨s, ts, hp, hst, hb, hpar⟩ := (h x (by simp)).first
    obtain ⟨ss, us, hps, hi⟩ := items_of (close := .rpar) (vs := xs) fun x hx => (h x (by simp [hx])).item rfl rfl (by decide)
    have hpr := Prints.tuple (PrintsL.cons hp hps)
    have hel : ∀ r, full .paren (ts ++ .sym .comma :: r) = seq (full (.items .elem .rpar) r) fun l r => some (tuple (x :: Val.elts l), r) := by
      intro r
      rw [paren_first hst (hpar _ (NoCont.none rfl)) (by simp)]; rfl
    cases hi with
    | nil =>
      refine good_paren (s := s ++ [',']) (ts := ts ++ [.sym .comma]) (prints_cast hpr (by simp [lit, tupleText])) (fun rest => ?_) cls fun rest => ?_
      · have := hb _ _ rest (Lx.comma' (Lx.rpar' Lx.nil)) (After.cons rfl)
        simpa using this
      · rw [List.append_assoc, List.singleton_append, hel, items_none]; rfl
    | @cons v' s' ts' vs ss us hv' hs =>
      have ht := (Items.cons hv' hs).tail
      refine good_paren (s := s ++ (s' :: ss).flatMap (lit ", " ++ ·)) (ts := ts ++ .sym .comma :: (ts' ++ us))
        (prints_cast hpr (by simp [lit, tupleText, interleave_cons])) (fun rest => ?_) cls fun rest => ?_
      · exact (hb.tail ht) _ _ rest (Lx.rpar' Lx.nil) (After.cons rfl)
      · rw [List.append_assoc, List.cons_append, hel, items_parse (by decide) hv' hs]; rfl

theorem g_list {xs : List Val} (h : ∀ x ∈ xs, Elem P H x) : G P H (list xs) := by
  have cls : IsExprNode (list xs) := ⟨.List, _, rfl, rfl, by decide, by decide⟩
  cases xs with
  | nil =>
    exact good_brack (s := []) (ts := []) (prints_cast (Prints.list PrintsL.nil) (by simp [lit, interleave]))
      (fun _ => Lx.rbrack' Lx.nil) cls fun rest => by rw [full_at]; rfl
  | cons x xs =>
    obtain ⟨s, ts, hp, hst, hb, hpar⟩ := (h x (by simp)).first
    obtain ⟨ss, us, hps, hi⟩ := items_of (close := .rbrack) (vs := xs) fun x hx => (h x (by simp [hx])).item rfl rfl (by decide)
    refine good_brack (s := s ++ ss.flatMap (lit ", " ++ ·)) (ts := ts ++ us)
      (prints_cast (Prints.list (PrintsL.cons hp hps)) (by simp [lit, interleave_cons])) (fun rest => ?_) cls fun rest => ?_
    · exact (hb.tail hi.tail) _ _ rest (Lx.rbrack' Lx.nil) (After.cons rfl)
    · rw [List.append_assoc]
      cases hi with
      | nil => rw [List.nil_append, brack_first hst (hpar _ (NoCont.none rfl))]; rfl
      | cons hv' hs =>
        rw [List.cons_append, brack_first hst (hpar _ (NoCont.none rfl))]
        show seq (full (.items .elem .rbrack) _) _ = _
        rw [items_parse (by decide) hv' hs]; rfl

theorem g_set {x : Val} {xs : List Val} (h : ∀ y ∈ x :: xs, Elem P H y) : G P H (mk .Set [(.elts, .list (x :: xs))]) := by
  obtain ⟨s, ts, hp, hst, hb, hpar⟩ := (h x (by simp)).first
  obtain ⟨ss, us, hps, hi⟩ := items_of (close := .rbrace) (vs := xs) fun x hx => (h x (by simp [hx])).item rfl rfl (by decide)
  refine good_brace (s := s ++ ss.flatMap (lit ", " ++ ·)) (ts := ts ++ us)
    (prints_cast (Prints.set (PrintsL.cons hp hps)) (by simp [lit, interleave_cons])) (fun rest => ?_)
    ⟨.Set, _, rfl, rfl, by decide, by decide⟩ fun rest => ?_
  · exact (hb.tail hi.tail) _ _ rest (Lx.rbrace' Lx.nil) (After.cons rfl)
  · rw [List.append_assoc]
    cases hi with
    | nil => rw [List.nil_append, brace_first hst (hpar _ (NoCont.none rfl))]; rfl
    | cons hv' hs =>
      rw [List.cons_append, brace_first hst (hpar _ (NoCont.none rfl))]
      show seq (full (.items .elem .rbrace) _) _ = _
      rw [items_parse (by decide) hv' hs]; rfl

end Mcpyrate.PyText
