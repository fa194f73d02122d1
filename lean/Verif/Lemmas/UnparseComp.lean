import Verif.Lemmas.UnparsePrimary
/-
Boolean operators, comparisons, dict displays and comprehensions.
-/
namespace Mcpyrate.PyText
open Py
open Unparse (Host Prints PrintsL PrintsO PrintsCmp PrintsPairs lit interleave isIntConstant)

variable {P : Reading} {H : Host}

/-! ### Boolean operators -/

/-- The operands after the first one. -/
theorem bool_tail {L : Nat} {o : Sym} {sep : Str} {nt : NT} (hL : L < 14) (ho : contLevel (.sym o) = some L)
    (hlx : ∀ {t k rest}, Lx P t k rest → Lx P (' ' :: sep ++ t) (.sym o :: k) rest)
    (hstop : ∀ {rest}, NoCont L rest → full nt rest = some (.list [], rest))
    (hstep : ∀ {ts b r1 l r2}, full (ntAt (L + 1)) ts = some (b, r1) → full nt r1 = some (.list l, r2) →
      full nt (.sym o :: ts) = some (.list (b :: l), r2)) :
    ∀ {bs : List Val}, (∀ b ∈ bs, G P H b) → ∃ ss ts, PrintsL H bs ss ∧ Tail P (ss.flatMap (' ' :: sep ++ ·)) ts ∧
      ∀ rest, NoCont L rest → full nt (ts ++ rest) = some (.list bs, rest) ∧ NoCont (L + 1) (ts ++ rest) ∧
        ((∀ r, rest ≠ .sym .colonEq :: r) → ∀ r, ts ++ rest ≠ .sym .colonEq :: r)
  | [], _ => ⟨[], [], PrintsL.nil, Tail.nil, fun rest hr => ⟨hstop hr, hr.mono (Nat.le_succ L), fun h => h⟩⟩
  | b :: bs, h => by
    obtain ⟨s, ts, g⟩ := h b (by simp)
    obtain ⟨ss, us, hp, ht, hr⟩ := bool_tail hL ho hlx hstop hstep (bs := bs) fun x hx => h x (by simp [hx])
    refine ⟨s :: ss, .sym o :: (ts ++ us), PrintsL.cons g.prints hp, ?_, fun rest hn => ⟨?_, NoCont.lt ho (Nat.lt_succ_self L), fun _ r e => ?_⟩⟩
    · rw [List.flatMap_cons]
      have hb : Body P (' ' :: (sep ++ s ++ ss.flatMap (' ' :: sep ++ ·))) (.sym o :: (ts ++ us)) := fun t k rest hlt hf => by
        have := hlx (g.body.tail ht _ _ _ hlt hf)
        simpa using this
      have := Tail.cons hb rfl
      simpa using this
    · obtain ⟨h1, h2, -⟩ := hr rest hn
      rw [List.cons_append, List.append_assoc]
      exact hstep (g.at (by omega) h2) h1
    · simp only [List.cons_append, List.cons.injEq, Tok.sym.injEq] at e
      rw [e.1] at ho; exact nomatch ho

theorem g_boolOp {k : K} {L : Nat} {o : Sym} {w : String} {sep : Str} {nt : NT} (hk : Unparse.boolop k = some w)
    (hsep : lit " " ++ w.toList ++ lit " " = ' ' :: sep) (hL : L < 14) (ho : contLevel (.sym o) = some L)
    (hlx : ∀ {t k rest}, Lx P t k rest → Lx P (' ' :: sep ++ t) (.sym o :: k) rest)
    (hstop : ∀ {rest}, NoCont L rest → full nt rest = some (.list [], rest))
    (hstep : ∀ {ts b r1 l r2}, full (ntAt (L + 1)) ts = some (b, r1) → full nt r1 = some (.list l, r2) →
      full nt (.sym o :: ts) = some (.list (b :: l), r2))
    (hfull : ∀ {ts a r1 l r2}, full (ntAt (L + 1)) ts = some (a, r1) → full nt r1 = some (.list l, r2) →
      full (ntAt L) ts = some (boolOp k a l, r2))
    {a b : Val} {bs : List Val} (h : ∀ x ∈ a :: b :: bs, G P H x) :
    G P H (mk .BoolOp [(.op, mk k []), (.values, .list (a :: b :: bs))]) := by
  obtain ⟨s, ts, g⟩ := h a (by simp)
  obtain ⟨ss, us, hp, ht, hr⟩ := bool_tail hL ho hlx hstop hstep (bs := b :: bs) fun x hx => h x (by simp [hx])
  refine good_paren (s := s ++ ss.flatMap (' ' :: sep ++ ·)) (ts := ts ++ us)
    (prints_cast (Prints.boolOp hk (PrintsL.cons g.prints hp)) (by rw [hsep, interleave_cons]; simp [lit])) (fun rest => ?_)
    ⟨.BoolOp, _, rfl, rfl, by decide, by decide⟩ fun rest => ?_
  · exact g.body.tail ht _ _ rest (Lx.rpar' Lx.nil) (After.cons rfl)
  · obtain ⟨h1, h2, h3⟩ := hr (.sym .rpar :: rest) (NoCont.none rfl)
    refine paren_level (K := L) (by omega) ?_ ?_ ?_ rfl
    · rw [List.append_assoc]; exact hfull (g.at (by omega) h2) h1
    · obtain ⟨t, r, rfl, ht⟩ := g.head
      exact ⟨t, _, rfl, opener_atom ht, by rw [atomStart_level ht]; omega⟩
    · rw [List.append_assoc]
      exact g.notNamed (h3 (by simp))

theorem g_or (hP : P.Lawful) {a b : Val} {bs : List Val} (h : ∀ x ∈ a :: b :: bs, G P H x) :
    G P H (mk .BoolOp [(.op, mk .Or []), (.values, .list (a :: b :: bs))]) :=
  g_boolOp (L := 1) (o := .kOr) (sep := lit "or ") (nt := .disjRest) rfl rfl (by decide) rfl
    (fun h => Lx.sp (Lx.kOr hP (Lx.sp h))) disjRest_stop
    (fun h1 h2 => by rw [full_at]; show seq (full .conj _) _ = _; rw [show full .conj _ = _ from h1, seq_some, h2]; rfl)
    (fun h1 h2 => by show full .disj _ = _; rw [full_at]; show seq (full .conj _) _ = _; rw [show full .conj _ = _ from h1, seq_some, h2]; rfl) h

theorem g_and (hP : P.Lawful) {a b : Val} {bs : List Val} (h : ∀ x ∈ a :: b :: bs, G P H x) :
    G P H (mk .BoolOp [(.op, mk .And []), (.values, .list (a :: b :: bs))]) :=
  g_boolOp (L := 2) (o := .kAnd) (sep := lit "and ") (nt := .conjRest) rfl rfl (by decide) rfl
    (fun h => Lx.sp (Lx.kAnd hP (Lx.sp h))) conjRest_stop
    (fun h1 h2 => by rw [full_at]; show seq (full .inv _) _ = _; rw [show full .inv _ = _ from h1, seq_some, h2]; rfl)
    (fun h1 h2 => by show full .conj _ = _; rw [full_at]; show seq (full .inv _) _ = _; rw [show full .inv _ = _ from h1, seq_some, h2]; rfl) h

/-! ### Comparisons -/

/-- A comparison operator and an operand, as the parser returns them. -/
def cmpPair (p : K × Val) : Val := .list [mk p.1 [], p.2]

theorem cmpOp_toks {k : K} {w : String} (h : Unparse.cmpop k = some w) {t : Tok} {r : List Tok} (ht : atomStart t = true) :
    cmpOp? (cmpToks k ++ t :: r) = some (k, t :: r) ∧ ∃ u us, cmpToks k = .sym u :: us ∧ contLevel (.sym u) = some 4 := by
  unfold Unparse.cmpop at h
  split at h <;> first
    | exact ⟨rfl, _, _, rfl, rfl⟩
    | (refine ⟨?_, _, _, rfl, rfl⟩
       cases t with
       | sym s => cases s <;> first | rfl | exact nomatch ht
       | _ => rfl)
    | exact nomatch h

theorem cmp_tail (hP : P.Lawful) : ∀ {ps : List (K × Val)}, (∀ p ∈ ps, (∃ w, Unparse.cmpop p.1 = some w) ∧ G P H p.2) →
    ∃ ss ts, PrintsCmp H (ps.map cmpPair) ss ∧ Tail P ss.flatten ts ∧
      ∀ rest, NoCont 4 rest → full .cmpRest (ts ++ rest) = some (.list (ps.map cmpPair), rest) ∧ NoCont 5 (ts ++ rest) ∧
        ((∀ r, rest ≠ .sym .colonEq :: r) → ∀ r, ts ++ rest ≠ .sym .colonEq :: r)
  | [], _ => ⟨[], [], .nil, Tail.nil, fun rest hr => ⟨cmpRest_stop hr, hr.mono (by decide), fun h => h⟩⟩
  | (k, b) :: ps, h => by
    obtain ⟨⟨w, hw⟩, s, ts, g⟩ := h (k, b) (by simp)
    obtain ⟨ss, us, hp, ht, hr⟩ := cmp_tail hP (ps := ps) fun x hx => h x (by simp [hx])
    obtain ⟨t, tr, hts, hta⟩ := g.head
    obtain ⟨-, u, us', hu, hu4⟩ := cmpOp_toks hw (r := []) hta
    refine ⟨_, cmpToks k ++ (ts ++ us), .cons hw g.prints hp, ?_, fun rest hn => ⟨?_, ?_, fun _ r e => ?_⟩⟩
    · have hb : Body P (' ' :: (w.toList ++ ' ' :: (s ++ ss.flatten))) (cmpToks k ++ (ts ++ us)) := fun t k' rest hlt hf => by
        have := Lx.sp (Lx.cmpop hP hw (Lx.sp (g.body.tail ht _ _ _ hlt hf)))
        simpa using this
      have := Tail.cons hb rfl
      simpa [lit] using this
    · obtain ⟨h1, h2, -⟩ := hr rest hn
      have e : cmpToks k ++ (ts ++ us) ++ rest = cmpToks k ++ (ts ++ (us ++ rest)) := by simp
      rw [e, full_at]
      show pCmpRest full _ = _
      unfold pCmpRest
      have hop : cmpOp? (cmpToks k ++ (ts ++ (us ++ rest))) = some (k, ts ++ (us ++ rest)) := by
        rw [hts]; exact (cmpOp_toks hw hta).1
      rw [hop]
      dsimp only
      rw [g.bin0 h2, seq_some, h1]; rfl
    · rw [hu]; exact NoCont.lt hu4 (by decide)
    · rw [hu] at e
      simp only [List.cons_append, List.cons.injEq, Tok.sym.injEq] at e
      rw [e.1] at hu4; exact nomatch hu4

theorem g_compare (hP : P.Lawful) {a : Val} {p : K × Val} {ps : List (K × Val)} (ha : G P H a)
    (h : ∀ q ∈ p :: ps, (∃ w, Unparse.cmpop q.1 = some w) ∧ G P H q.2) : G P H (compare a ((p :: ps).map cmpPair)) := by
  obtain ⟨s, ts, g⟩ := ha
  obtain ⟨ss, us, hp, ht, hr⟩ := cmp_tail hP h
  refine good_paren (s := s ++ ss.flatten) (ts := ts ++ us)
    (prints_cast (Prints.compare g.prints hp) (by simp [lit])) (fun rest => ?_)
    ⟨.Compare, _, rfl, rfl, by decide, by decide⟩ fun rest => ?_
  · exact g.body.tail ht _ _ rest (Lx.rpar' Lx.nil) (After.cons rfl)
  · obtain ⟨h1, h2, h3⟩ := hr (.sym .rpar :: rest) (NoCont.none rfl)
    refine paren_level (K := 4) (by decide) ?_ ?_ ?_ rfl
    · rw [List.append_assoc]
      show full .cmp _ = _
      rw [full_at]; show seq (full (.bin 0) _) _ = _
      rw [g.bin0 h2, seq_some, h1]; rfl
    · obtain ⟨t, r, rfl, ht⟩ := g.head
      exact ⟨t, _, rfl, opener_atom ht, by rw [atomStart_level ht]; omega⟩
    · rw [List.append_assoc]
      exact g.notNamed (h3 (by simp))

/-! ### Dict displays -/

/-- A key and a value, as the parser returns them. -/
def dictPair (p : Val × Val) : Val := .list [p.1, p.2]

theorem full_pairs {ts} (h1 : ∀ r, ts ≠ .sym .rbrace :: r) (h2 : ∀ r, ts ≠ .sym .starStar :: r) :
    full .pairs ts = seq (full .expr ts) (pairValue full) := by
  rw [full_at]; show pPairs full ts = _
  unfold pPairs
  split
  · exact absurd rfl (h1 _)
  · exact absurd rfl (h2 _)
  · rfl

theorem Good.colonBody {v s ts} (g : Good P H v s ts) {w us} (g' : Good P H w s' us) : Body P (s ++ ':' :: ' ' :: s') (ts ++ .sym .colon :: us) :=
  g.body.tail (Tail.cons (fun _ _ _ ht hf => Lx.colon' (Lx.sp (g'.body _ _ _ ht hf)) (by simp)) rfl)

theorem pairs_tail : ∀ {ps : List (Val × Val)}, (∀ p ∈ ps, G P H p.1 ∧ G P H p.2) →
    ∃ ss ts, PrintsPairs H (ps.map dictPair) ss ∧ Tail P (ss.flatMap (lit ", " ++ ·)) ts ∧
      ∀ rest kv, pairsRest full kv (ts ++ .sym .rbrace :: rest) = some (.list (kv :: ps.map dictPair), rest) ∧
        NoCont 0 (ts ++ .sym .rbrace :: rest)
  | [], _ => ⟨[], [], .nil, Tail.nil, fun rest kv => ⟨rfl, NoCont.none rfl⟩⟩
  | (k, v) :: ps, h => by
    obtain ⟨⟨s, ts, g⟩, s', ts', g'⟩ := h (k, v) (by simp)
    obtain ⟨ss, us, hp, ht, hr⟩ := pairs_tail (ps := ps) fun x hx => h x (by simp [hx])
    refine ⟨_, .sym .comma :: (ts ++ .sym .colon :: ts' ++ us), .cons g.prints g'.prints hp, ?_, fun rest kv => ⟨?_, NoCont.none rfl⟩⟩
    · rw [List.flatMap_cons]
      have hb : Body P (',' :: ' ' :: (s ++ ':' :: ' ' :: s' ++ ss.flatMap (lit ", " ++ ·))) (.sym .comma :: (ts ++ .sym .colon :: ts' ++ us)) :=
        fun t k rest hlt hf => Lx.comma' (Lx.sp ((g.colonBody g').tail ht _ _ _ hlt hf))
      have := Tail.cons hb rfl
      simpa [lit] using this
    · have h1 := hr rest (.list [k, v])
      show seq (full .pairs _) _ = _
      have e : (ts ++ .sym .colon :: ts' ++ us).append (.sym .rbrace :: rest) = ts ++ .sym .colon :: (ts' ++ (us ++ .sym .rbrace :: rest)) := by
        show ts ++ .sym .colon :: ts' ++ us ++ _ = _; simp
      rw [e, full_pairs (g.neSym rfl _) (g.neSym rfl _), g.expr (NoCont.none rfl), seq_some]
      show seq (seq (full .expr _) _) _ = _
      rw [g'.expr h1.2, seq_some, h1.1]; rfl

theorem Good.elemStart {v s ts} (g : Good P H v s ts) : ElemStart ts := by
  obtain ⟨t, r, e, ht⟩ := g.head
  exact ⟨⟨t, r, e, .inl ht⟩, fun _ h => g.notNamed h⟩

theorem g_dict {ps : List (Val × Val)} (h : ∀ p ∈ ps, G P H p.1 ∧ G P H p.2) : G P H (dict (ps.map dictPair)) := by
  have cls : IsExprNode (dict (ps.map dictPair)) := ⟨.Dict, _, rfl, rfl, by decide, by decide⟩
  cases ps with
  | nil =>
    exact good_brace (s := []) (ts := []) (prints_cast (Prints.dict .nil) (by simp [lit, interleave]))
      (fun _ => Lx.rbrace' Lx.nil) cls fun rest => by rw [full_at]; rfl
  | cons p ps =>
    obtain ⟨k, v⟩ := p
    obtain ⟨⟨s, ts, g⟩, s', ts', g'⟩ := h (k, v) (by simp)
    obtain ⟨ss, us, hp, ht, hr⟩ := pairs_tail (ps := ps) fun x hx => h x (by simp [hx])
    refine good_brace (s := s ++ ':' :: ' ' :: s' ++ ss.flatMap (lit ", " ++ ·)) (ts := ts ++ .sym .colon :: ts' ++ us)
      (prints_cast (Prints.dict (.cons g.prints g'.prints hp)) (by simp [lit, interleave_cons])) (fun rest => ?_) cls fun rest => ?_
    · exact (g.colonBody g').tail ht _ _ rest (Lx.rbrace' Lx.nil) (After.cons rfl)
    · have h1 := hr rest (.list [k, v])
      have e : ts ++ .sym .colon :: ts' ++ us ++ .sym .rbrace :: rest = ts ++ .sym .colon :: (ts' ++ (us ++ .sym .rbrace :: rest)) := by
        simp
      rw [e, brace_first g.elemStart (g.elem (NoCont.none rfl))]
      show (if isStarred k then none else seq (full .expr _) (dictRest full k)) = _
      rw [g.notStarred, if_neg (by simp), g'.expr h1.2, seq_some]
      unfold dictRest
      split
      · rename_i e; rw [e] at h1; exact nomatch h1.1
      · rename_i e; rw [e] at h1; exact nomatch h1.1
      · rw [h1.1]; rfl

end Mcpyrate.PyText
