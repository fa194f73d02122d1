import Verif.Lemmas.UnparseItems
/-
Attributes, calls and subscripts.
-/
namespace Mcpyrate.PyText
open Py
open Unparse (Host Prints PrintsL PrintsO lit interleave isIntConstant tupleText)

variable {P : Reading} {H : Host}

/-- What goes on after an expression. -/
theorem good_after {a v s ts w us} (ga : Good P H a s ts) (prints : Prints H v (s ++ w))
    (lexes : ∀ rest, Follow rest → Lx P (s ++ w) (ts ++ us) rest)
    (ends : ∃ w' c, w = w' ++ [c] ∧ Dialects.isSpace c = false)
    (head : ∃ t r, us = t :: r ∧ t ≠ .sym .colonEq ∧ t ≠ .sym .eq) (cls : IsExprNode v)
    (parses : ∀ rest, full (.primRest a) (us ++ rest) = full (.primRest v) rest) : G P H v := by
  refine ⟨s ++ w, ts ++ us, prints, fun rest hf _ => lexes rest hf, ?_, ?_, ?_, ?_, cls, ?_⟩
  · obtain ⟨c, x, rfl, h⟩ := ga.starts; exact ⟨c, _, rfl, h⟩
  · obtain ⟨x, c, rfl, h⟩ := ends; exact ⟨s ++ x, c, by simp, h⟩
  · obtain ⟨t, r, rfl, h⟩ := ga.head; exact ⟨t, _, rfl, h⟩
  · intro x t r e
    obtain ⟨u, r', rfl, hu⟩ := head
    obtain ⟨u', r'', rfl, -⟩ := ga.head
    cases r'' with
    | nil =>
      simp only [List.cons_append, List.nil_append, List.cons.injEq] at e
      obtain ⟨-, rfl, -⟩ := e; exact hu
    | cons u'' r''' =>
      simp only [List.cons_append, List.cons.injEq] at e
      obtain ⟨rfl, rfl, -⟩ := e
      exact ga.look _ _ _ rfl
  · intro rest x h
    rw [List.append_assoc]
    exact ga.parses _ _ (by rw [parses]; exact h)

theorem g_attr (hP : P.Lawful) {a : Val} {x : String} (ha : G P H a) (hx : TokOK P (.name x)) : G P H (attrOf a x) := by
  obtain ⟨s, ts, ga⟩ := ha
  obtain ⟨⟨c, w, hcw, hc⟩, -⟩ := id hx
  obtain ⟨hst, w', c', hends, hc'⟩ := name_text hP hx
  have hl : ∀ rest, Follow rest → Lx P ('.' :: x.toList) [.sym .dot, .name x] rest := by
    intro rest hf
    have h1 : Lx P x.toList [.name x] rest := Lx.name hP hx hf.cont hf.quote
    refine Lx.append (t1 := ['.']) (t2 := x.toList) (k1 := [.sym .dot]) ?_ h1
    rw [hcw]; exact Lx.dot hc
  refine good_after ga (w := (if isIntConstant a then lit " " else []) ++ '.' :: x.toList) (us := [.sym .dot, .name x])
    (prints_cast (Prints.attrOf ga.prints) (by simp [lit])) (fun rest hf => ?_)
    ⟨(if isIntConstant a then lit " " else []) ++ '.' :: w', c', by rw [hends]; simp, hc'⟩
    ⟨_, _, rfl, by simp⟩ ⟨.Attribute, _, rfl, rfl, by decide, by decide⟩ (fun rest => by rw [full_at]; rfl)
  cases hi : isIntConstant a with
  | true =>
    simp only [if_true]
    exact ga.lx (t := ' ' :: '.' :: x.toList) (Lx.sp (hl rest hf)) (Follow.cons rfl) (by simp)
  | false =>
    simp only [Bool.false_eq_true, if_false, List.nil_append]
    exact Lx.append (ga.lexes _ (Follow.cons rfl) (fun _ => hi)) (hl rest hf)

/-! ### Calls -/

/-- An argument of a call: a keyword argument. -/
def Kw (P : Reading) (H : Host) (v : Val) : Prop :=
  (∃ w, v = keywordOf .none w ∧ G P H w) ∨ ∃ x w, v = keywordOf (.str x) w ∧ TokOK P (.name x) ∧ G P H w

theorem noCont_item {L : Nat} {cl : Sym} (hc : contLevel (.sym cl) = none) {sy r} (h : sy = Sym.comma ∨ sy = cl) :
    NoCont L (.sym sy :: r) := by
  rcases h with rfl | rfl
  · exact NoCont.none rfl
  · exact NoCont.none hc

theorem full_arg {ts} (h1 : ∀ r, ts ≠ .sym .star :: r) (h2 : ∀ r, ts ≠ .sym .starStar :: r) (h3 : NotKeyword ts) :
    full .arg ts = full .expr ts := by
  rw [full_at]; show pArg full ts = _
  unfold pArg
  split
  · exact absurd rfl (h1 _)
  · exact absurd rfl (h2 _)
  · exact absurd rfl (h3 _ _)
  · rfl

theorem Elem.arg {v} (h : Elem P H v) : IsItem P H .arg .rpar v := by
  rcases h with ⟨s, ts, g⟩ | ⟨w, rfl, s, ts, g⟩
  · obtain ⟨t, r, e, ht⟩ := g.head
    refine ⟨s, ts, g.prints, g.body, fun sy r' h => ?_, t, r, e, atomStart_ne ht rfl⟩
    rw [full_arg ?_ ?_ (g.notKeywordArg ?_)]
    · exact g.expr (noCont_item rfl h)
    · subst e; intro r'' e; cases e; exact nomatch ht
    · subst e; intro r'' e; cases e; exact nomatch ht
    · rcases h with rfl | rfl <;> simp
  · refine ⟨_, .sym .star :: ts, prints_cast (Prints.starred g.prints) (s' := '*' :: s) (by simp), g.starBody, fun sy r h => ?_,
      _, _, rfl, by decide⟩
    rw [full_at, List.cons_append]; show seq (full .expr _) _ = _
    rw [g.expr (noCont_item rfl h)]; rfl

theorem Kw.item (hP : P.Lawful) {v} (h : Kw P H v) : IsItem P H .arg .rpar v := by
  rcases h with ⟨w, rfl, s, ts, g⟩ | ⟨x, w, rfl, hx, s, ts, g⟩
  · refine ⟨_, .sym .starStar :: ts, prints_cast (Prints.doubleStar g.prints) (s' := '*' :: '*' :: s) (by simp [lit]), ?_, fun sy r h => ?_,
      _, _, rfl, by decide⟩
    · intro t k rest ht hf
      refine Lx.starStar' (g.body _ _ _ ht hf) ?_
      show (s ++ t ++ rest).head? ≠ _; rw [List.append_assoc]; exact g.next _ (by simp)
    · rw [full_at, List.cons_append]; show seq (full .expr _) _ = _
      rw [g.expr (noCont_item rfl h)]; rfl
  · refine ⟨_, .name x :: .sym .eq :: ts, prints_cast (Prints.keyword g.prints) (s' := x.toList ++ '=' :: s) (by simp [lit]), ?_,
      fun sy r h => ?_, _, _, rfl, by simp⟩
    · intro t k rest ht hf
      have h1 := Lx.eq' (g.body _ _ _ ht hf) (by rw [List.append_assoc]; exact g.next _ (by simp))
      have := Lx.nameThen hP hx h1 (Follow.cons rfl)
      simpa using this
    · rw [full_at, List.cons_append, List.cons_append]; show seq (full .expr _) _ = _
      rw [g.expr (noCont_item rfl h)]; rfl

theorem callParts_ok {as ks : List Val} (ha : ∀ a ∈ as, a.isK .keyword = false) (hk : ∀ k ∈ ks, k.isK .keyword = true) :
    callParts (as ++ ks) = some (as, ks) := by
  induction as with
  | nil =>
    simp only [List.nil_append]
    clear ha
    induction ks with
    | nil => rfl
    | cons k ks ih =>
      rw [callParts, ih fun x hx => hk x (by simp [hx])]
      simp [hk k (by simp)]
  | cons a as ih =>
    rw [List.cons_append, callParts, ih fun x hx => ha x (by simp [hx])]
    simp [ha a (by simp)]

theorem Elem.notKeyword {v} (h : Elem P H v) : v.isK .keyword = false := by
  rcases h with ⟨_, _, g⟩ | ⟨w, rfl, _⟩
  · exact g.notKeyword
  · rfl

theorem Kw.isKeyword {v} (h : Kw P H v) : v.isK .keyword = true := by
  rcases h with ⟨_, rfl, _⟩ | ⟨_, _, rfl, _⟩ <;> rfl

theorem items_append {nt close} {vs ws : List Val} {ss ss' us us'} (h : Items P nt close vs ss us) (h' : Items P nt close ws ss' us') :
    Items P nt close (vs ++ ws) (ss ++ ss') (us ++ us') := by
  induction h with
  | nil => exact h'
  | cons h _ ih =>
    have := Items.cons h ih
    rw [← List.append_assoc] at this
    exact this

theorem g_call (hP : P.Lawful) {f : Val} {as ks : List Val} (hf : G P H f) (ha : ∀ a ∈ as, Elem P H a) (hk : ∀ k ∈ ks, Kw P H k) :
    G P H (mk .Call [(.func, f), (.args, .list as), (.keywords, .list ks)]) := by
  obtain ⟨s, ts, gf⟩ := hf
  obtain ⟨ss, us, hps, hi⟩ := items_of fun x hx => (ha x hx).arg
  obtain ⟨ss', us', hps', hi'⟩ := items_of fun x hx => (hk x hx).item hP
  have hii := items_append hi hi'
  have hcp := callParts_ok (fun a h => (ha a h).notKeyword) (fun k h => (hk k h).isKeyword)
  have hpr := Prints.call gf.prints hps hps'
  have cls : IsExprNode (mk .Call [(.func, f), (.args, .list as), (.keywords, .list ks)]) := ⟨.Call, _, rfl, rfl, by decide, by decide⟩
  generalize hxs : as ++ ks = xs at hii hcp
  generalize hss : ss ++ ss' = xss at hii hpr
  generalize huu : us ++ us' = xus at hii
  clear hi hi' hps hps' huu hss
  have fin : ∀ l r, Val.elts l = xs → callRest full f l r =
      full (.primRest (mk .Call [(.func, f), (.args, .list as), (.keywords, .list ks)])) r := by
    intro l r e
    unfold callRest callOf
    rw [e, hcp]; rfl
  cases hii with
  | nil =>
    refine good_after gf (w := ['(', ')']) (us := [.sym .lpar, .sym .rpar]) (prints_cast hpr (by simp [lit, interleave])) (fun rest hf => ?_)
      ⟨['('], ')', rfl, by decide⟩ ⟨_, _, rfl, by simp⟩ cls fun rest => ?_
    · exact gf.lx (t := ['(', ')']) (Lx.lpar' (Lx.rpar' Lx.nil)) (Follow.cons rfl) (by simp)
    · rw [full_at]; show seq (full (.items .arg .rpar) (.sym .rpar :: rest)) (callRest full f) = _
      rw [items_none, seq_some, fin _ _ rfl]
  | @cons v s' ts' vs ss us hv hs =>
    refine good_after gf (w := '(' :: (s' ++ ss.flatMap (lit ", " ++ ·)) ++ [')']) (us := .sym .lpar :: (ts' ++ us) ++ [.sym .rpar])
      (prints_cast hpr (by simp [lit, interleave_cons])) (fun rest hf => ?_)
      ⟨_, ')', rfl, by decide⟩ ⟨_, _, rfl, by simp⟩ cls fun rest => ?_
    · exact gf.lx (Lx.lpar' (hv.body.tail hs.tail _ _ rest (Lx.rpar' Lx.nil) (After.cons rfl))) (Follow.cons rfl) (by simp)
    · rw [full_at, List.append_assoc, List.cons_append]
      show seq (full (.items .arg .rpar) (ts' ++ us ++ .sym .rpar :: rest)) (callRest full f) = _
      rw [items_parse (by decide) hv hs, seq_some, fin _ _ rfl]

/-! ### Subscripts -/

/-- A part of a slice. -/
def OptG (P : Reading) (H : Host) (v : Val) : Prop := v = .none ∨ G P H v

/-- An item in a subscript. -/
def SliceItem (P : Reading) (H : Host) (v : Val) : Prop :=
  Elem P H v ∨ ∃ a b c, v = sliceOf a b c ∧ OptG P H a ∧ OptG P H b ∧ OptG P H c

/-- A part of a slice: its text and tokens, and what comes after it. -/
structure Part (P : Reading) (H : Host) (v : Val) (o : Option Str) (s : Str) (ts : List Tok) : Prop where
  prints : PrintsO H v o
  text : o.getD [] = s
  isNone : o = none → ts = [] ∧ v = .none
  good : ∀ x, o = some x → Good P H v s ts

theorem OptG.part {v} (h : OptG P H v) : ∃ o s ts, Part P H v o s ts := by
  rcases h with rfl | ⟨s, ts, g⟩
  · exact ⟨none, [], [], rfl, rfl, fun _ => ⟨rfl, rfl⟩, fun _ e => nomatch e⟩
  · exact ⟨some s, s, ts, g.printsO, rfl, fun e => (nomatch e), fun _ _ => g⟩

theorem Part.body {v o s ts} (h : Part P H v o s ts) : Body P s ts := by
  cases o with
  | none =>
    obtain ⟨rfl, -⟩ := h.isNone rfl
    rw [← h.text]; exact Tail.nil.lx
  | some x => exact (h.good x rfl).body

/-- After the part. -/
theorem Part.noEq {v o s ts} (h : Part P H v o s ts) {t : Str} (ht : t.head? ≠ some '=') : (s ++ t).head? ≠ some '=' := by
  cases o with
  | none => rw [← h.text]; exact ht
  | some x => exact (h.good x rfl).next _ (by simp)

theorem sliceEnds_good {v s ts} (g : Good P H v s ts) (rest : List Tok) : sliceEnds (ts ++ rest) = false := by
  obtain ⟨t, r, rfl, ht⟩ := g.head
  unfold sliceEnds
  simp only [List.cons_append, List.head?_cons, Option.some.injEq, Bool.or_eq_false_iff, decide_eq_false_iff_not]
  exact ⟨⟨atomStart_ne ht rfl, atomStart_ne ht rfl⟩, atomStart_ne ht rfl⟩

/-- The tokens that end a slice. -/
def Ends (ts : List Tok) : Prop := ∃ s r, ts = .sym s :: r ∧ (s = .comma ∨ s = .rbrack)

theorem Ends.sliceEnds {ts} (h : Ends ts) : sliceEnds ts = true := by
  obtain ⟨s, r, rfl, rfl | rfl⟩ := h <;> rfl
theorem Ends.noCont {L ts} (h : Ends ts) : NoCont L ts := by
  obtain ⟨s, r, rfl, rfl | rfl⟩ := h <;> exact NoCont.none rfl

/-- The tokens of the step. -/
def stepToks (o : Option Str) (ts : List Tok) : List Tok := if o.isSome then .sym .colon :: ts else []

theorem slice_step {a b c oc sc tc} (hc : Part P H c oc sc tc) {rest} (hr : Ends rest) :
    sliceColon full a b (stepToks oc tc ++ rest) = some (sliceOf a b c, rest) := by
  cases oc with
  | none =>
    obtain ⟨rfl, rfl⟩ := hc.isNone rfl
    obtain ⟨s, r, rfl, rfl | rfl⟩ := hr <;> rfl
  | some x =>
    have g := hc.good x rfl
    show sliceStep full a b (tc ++ rest) = _
    unfold sliceStep
    rw [sliceEnds_good g, g.expr hr.noCont]; rfl

theorem step_noCont {L oc tc rest} (hr : Ends rest) : NoCont L (stepToks oc tc ++ rest) := by
  cases oc with
  | none => exact hr.noCont
  | some x => exact NoCont.none rfl

theorem slice_upper {a b c ob sb tb oc sc tc} (hb : Part P H b ob sb tb) (hc : Part P H c oc sc tc) {rest} (hr : Ends rest) :
    sliceUpper full a (tb ++ (stepToks oc tc ++ rest)) = some (sliceOf a b c, rest) := by
  unfold sliceUpper
  cases ob with
  | none =>
    obtain ⟨rfl, rfl⟩ := hb.isNone rfl
    rw [if_pos]
    · exact slice_step hc hr
    · cases oc with
      | none => exact hr.sliceEnds
      | some x => rfl
  | some x =>
    have g := hb.good x rfl
    rw [sliceEnds_good g, g.expr (step_noCont hr)]
    exact slice_step hc hr

theorem full_slice {ts x} (h1 : ∀ r, ts ≠ .sym .star :: r) (h2 : ∀ r, ts ≠ .sym .colon :: r)
    (h : seq (full .expr ts) (sliceRest full) = x) : full .slice ts = x := by
  rw [full_at]; show pSlice full ts = _
  unfold pSlice
  split
  · exact absurd rfl (h1 _)
  · exact absurd rfl (h2 _)
  · exact h

theorem Good.neSym {v s ts} (g : Good P H v s ts) {sy : Sym} (h : atomStart (.sym sy) = false) (rest r : List Tok) :
    ts ++ rest ≠ .sym sy :: r := by
  obtain ⟨t, r', rfl, ht⟩ := g.head
  intro e
  simp only [List.cons_append, List.cons.injEq] at e
  exact atomStart_ne ht h e.1

theorem slice_parse {a b c oa sa ta ob sb tb oc sc tc} (ha : Part P H a oa sa ta) (hb : Part P H b ob sb tb) (hc : Part P H c oc sc tc)
    {rest} (hr : Ends rest) :
    full .slice (ta ++ .sym .colon :: (tb ++ (stepToks oc tc ++ rest))) = some (sliceOf a b c, rest) := by
  cases oa with
  | none =>
    obtain ⟨rfl, rfl⟩ := ha.isNone rfl
    rw [full_at]; exact slice_upper hb hc hr
  | some x =>
    have g := ha.good x rfl
    refine full_slice (g.neSym rfl _) (g.neSym rfl _) ?_
    rw [g.expr (NoCont.none rfl)]
    exact slice_upper hb hc hr

theorem SliceItem.item {v} (h : SliceItem P H v) : IsItem P H .slice .rbrack v := by
  rcases h with (⟨s, ts, g⟩ | ⟨w, rfl, s, ts, g⟩) | ⟨a, b, c, rfl, ha, hb, hc⟩
  · obtain ⟨t, r, e, ht⟩ := g.head
    refine ⟨s, ts, g.prints, g.body, fun sy r' h => ?_, t, r, e, atomStart_ne ht rfl⟩
    refine full_slice (g.neSym rfl _) (g.neSym rfl _) ?_
    rw [g.expr (noCont_item rfl h)]
    rcases h with rfl | rfl <;> rfl
  · refine ⟨_, .sym .star :: ts, prints_cast (Prints.starred g.prints) (s' := '*' :: s) (by simp), g.starBody, fun sy r h => ?_,
      _, _, rfl, by decide⟩
    rw [full_at, List.cons_append]; show seq (full (.bin 0) _) _ = _
    rw [g.bin0 (noCont_item rfl h)]; rfl
  · obtain ⟨oa, sa, ta, ha⟩ := ha.part
    obtain ⟨ob, sb, tb, hb⟩ := hb.part
    obtain ⟨oc, sc, tc, hc⟩ := hc.part
    refine ⟨_, ta ++ .sym .colon :: (tb ++ stepToks oc tc),
      prints_cast (Prints.slice ha.prints hb.prints hc.prints) (s' := sa ++ ':' :: (sb ++ (oc.map (':' :: ·)).getD []))
      (by rw [ha.text, hb.text]; simp [lit]), ?_, fun sy r h => ?_, ?_⟩
    · have htail : Tail P ((oc.map (':' :: ·)).getD []) (stepToks oc tc) := by
        cases oc with
        | none => exact Tail.nil
        | some x =>
          have g := hc.good x rfl
          have e : x = sc := hc.text
          subst e
          refine Tail.cons (c := ':') (fun t k rest ht hf => ?_) rfl
          refine Lx.colon' (g.body _ _ _ ht hf) ?_
          show (x ++ t ++ rest).head? ≠ _; rw [List.append_assoc]; exact g.next _ (by simp)
      refine Body.tail ha.body (Tail.cons (c := ':') (fun t k rest ht hf => ?_) rfl)
      refine Lx.colon' ((hb.body.tail htail) _ _ _ ht hf) ?_
      show (sb ++ (oc.map (':' :: ·)).getD [] ++ t ++ rest).head? ≠ _
      rw [List.append_assoc, List.append_assoc]
      exact hb.noEq (htail.follow _ hf).noEq
    · have := slice_parse ha hb hc (rest := .sym sy :: r) ⟨_, _, rfl, h⟩
      simpa using this
    · cases oa with
      | none =>
        obtain ⟨rfl, -⟩ := ha.isNone rfl
        exact ⟨_, _, rfl, by decide⟩
      | some x =>
        obtain ⟨t, r, rfl, ht⟩ := (ha.good x rfl).head
        exact ⟨t, _, rfl, atomStart_ne ht rfl⟩

theorem full_subs {v ts rest} (h : full .slice ts = some (v, rest)) : full .subs ts = subsRest full v rest := by
  rw [full_at]; show seq (full .slice ts) (subsRest full) = _
  rw [h]; rfl

/-- A subscript that is not a tuple. -/
theorem g_subscript {a s : Val} (ha : G P H a) (hs : SliceItem P H s) (ht : s.isK .Tuple = false) (hst : isStarred s = false) :
    G P H (subscript a s) := by
  obtain ⟨x, xt, ga⟩ := ha
  obtain ⟨y, yt, hp, hi⟩ := hs.item
  refine good_after ga (w := '[' :: (y ++ [']'])) (us := .sym .lbrack :: (yt ++ [.sym .rbrack]))
    (prints_cast (Prints.subscript ga.prints hp ht) (by simp [lit])) (fun rest hf => ?_)
    ⟨'[' :: y, ']', rfl, by decide⟩ ⟨_, _, rfl, by simp⟩ ⟨.Subscript, _, rfl, rfl, by decide, by decide⟩ fun rest => ?_
  · exact ga.lx (Lx.lbrack' (hi.body _ _ rest (Lx.rbrack' Lx.nil) (After.cons rfl))) (Follow.cons rfl) (by simp)
  · rw [full_at, List.cons_append, List.append_assoc]
    show seq (full .subs (yt ++ .sym .rbrack :: rest)) _ = _
    rw [full_subs (hi.parses .rbrack rest (.inr rfl))]
    show seq (some (if isStarred s then tuple [s] else s, rest)) _ = _
    rw [hst]; rfl

/-- A subscript that is a tuple. -/
theorem g_subscriptTuple {a x : Val} {xs : List Val} (ha : G P H a) (hs : ∀ y ∈ x :: xs, SliceItem P H y) :
    G P H (subscript a (tuple (x :: xs))) := by
  obtain ⟨s, ts, ga⟩ := ha
  obtain ⟨ss, us, hps, hi⟩ := items_of fun x hx => (hs x hx).item
  have cls : IsExprNode (subscript a (tuple (x :: xs))) := ⟨.Subscript, _, rfl, rfl, by decide, by decide⟩
  have hpr := Prints.subscriptTuple ga.prints hps
  cases hi with
  | @cons _ y yt _ ss us hv hi =>
    have hel : ∀ r, full .subs (yt ++ .sym .comma :: r) =
        seq (full (.items .slice .rbrack) r) fun l r => some (tuple (x :: Val.elts l), r) := by
      intro r; rw [full_subs (hv.parses .comma r (.inl rfl))]; rfl
    cases hi with
    | nil =>
      refine good_after ga (w := '[' :: (y ++ [',', ']'])) (us := .sym .lbrack :: (yt ++ [.sym .comma, .sym .rbrack]))
        (prints_cast hpr (by simp [lit, tupleText])) (fun rest hf => ?_)
        ⟨'[' :: (y ++ [',']), ']', by simp, by decide⟩ ⟨_, _, rfl, by simp⟩ cls fun rest => ?_
      · exact ga.lx (Lx.lbrack' (hv.body _ _ rest (Lx.comma' (Lx.rbrack' Lx.nil)) (After.cons rfl))) (Follow.cons rfl) (by simp)
      · rw [full_at, List.cons_append, List.append_assoc]
        show seq (full .subs (yt ++ .sym .comma :: .sym .rbrack :: rest)) _ = _
        rw [hel, items_none]; rfl
    | @cons x' y' yt' xs' ss us hv' hi =>
      have ht := (Items.cons hv' hi).tail
      refine good_after ga (w := '[' :: (y ++ (y' :: ss).flatMap (lit ", " ++ ·) ++ [']']))
        (us := .sym .lbrack :: (yt ++ .sym .comma :: (yt' ++ us) ++ [.sym .rbrack]))
        (prints_cast hpr (by simp [lit, tupleText, interleave_cons])) (fun rest hf => ?_)
        ⟨'[' :: (y ++ (y' :: ss).flatMap (lit ", " ++ ·)), ']', by simp, by decide⟩ ⟨_, _, rfl, by simp⟩ cls fun rest => ?_
      · exact ga.lx (Lx.lbrack' ((hv.body.tail ht) _ _ rest (Lx.rbrack' Lx.nil) (After.cons rfl))) (Follow.cons rfl) (by simp)
      · rw [full_at, List.cons_append]
        show seq (full .subs _) _ = _
        have e : yt ++ .sym .comma :: (yt' ++ us) ++ [.sym .rbrack] ++ rest = yt ++ .sym .comma :: (yt' ++ us ++ .sym .rbrack :: rest) := by simp
        rw [e, hel, items_parse (by decide) hv' hi]; rfl

end Mcpyrate.PyText
