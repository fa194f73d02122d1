import Verif.Lemmas.PatternGood
/-
Names, sequences, mappings, classes, alternatives and `as`.
-/
namespace Mcpyrate.PyText
open Py
open Unparse (Host Large Prints PrintsL PrintsO lit interleave dispatch isIntConstant)

variable {P : Reading} {H : Host}

theorem interleave_append {sep : Str} {xs ys : List Str} :
    interleave sep (xs ++ ys) = interleave sep xs ++ (if ys.isEmpty then [] else (if xs.isEmpty then [] else sep) ++ interleave sep ys) := by
  cases xs with
  | nil => cases ys <;> simp [interleave]
  | cons x xs =>
    cases ys with
    | nil => simp
    | cons y ys => simp [interleave_cons]

/-- Items up to the closing bracket. -/
theorem items_all {nt close vs ss us} (hc : close ≠ .comma) (h : Items P nt close vs ss us) :
    ∃ uu, (∀ c t k rest, afterChar c = true → Lx P (c :: t) (.sym close :: k) rest →
        Lx P (interleave (lit ", ") ss ++ c :: t) (uu ++ .sym close :: k) rest) ∧
      ∀ r, full (.items nt close) (uu ++ .sym close :: r) = some (.list vs, r) := by
  cases h with
  | nil => exact ⟨[], fun c t k rest _ h => h, fun r => items_none⟩
  | @cons v s ts vs ss us h hs =>
    refine ⟨ts ++ us, fun c t k rest ha hl => ?_, fun r => items_parse hc h hs⟩
    rw [interleave_cons]
    exact (h.body.tail hs.tail) _ _ _ hl (After.cons ha)

theorem underscore : TokOK P (.name "_") :=
  ⟨⟨'_', [], rfl, by simp [Reading.start, isLetter]⟩, by simp [Reading.cont, isLetter], by decide⟩

/-! ### Names and singletons -/

theorem name_pat (hP : P.Lawful) {x : String} {v : Val} (hx : TokOK P (.name x)) (hp : Prints H v x.toList)
    (hv : v = matchAs .none (if x = "_" then .none else .str x)) : GoodC P H v x.toList [.name x] where
  prints := hp
  body := Body.name hP hx
  starts := (good_name (H := H) hP hx).starts
  head := ⟨_, _, rfl, rfl⟩
  look := fun _ _ _ e => nomatch e
  notStar := by rw [hv]; rfl
  notKeyword := by rw [hv]; rfl
  parses rest hr := by
    rw [full_at]; show nameStart full x rest = _
    unfold nameStart
    split
    · exact absurd rfl (hr.ne rfl)
    · exact absurd rfl (hr.ne rfl)
    · rw [hv]

theorem wildcard_good (hP : P.Lawful) : GoodC P H (matchAs .none .none) "_".toList [.name "_"] :=
  name_pat hP underscore (Large.succ (p := fun _ => True) (Large.all fun _ => trivial) fun n _ c => by
    show Unparse.matchAs (dispatch H n) c _ = _
    unparsing [Unparse.matchAs, Val.isNone]; rfl) rfl

theorem capture_good (hP : P.Lawful) {x : String} (h : IsCapture P x) : GoodC P H (matchAs .none (.str x)) x.toList [.name x] :=
  name_pat hP h.1 (Large.succ (p := fun _ => True) (Large.all fun _ => trivial) fun n _ c => by
    show Unparse.matchAs (dispatch H n) c _ = _
    unparsing [Unparse.matchAs, Val.isNone]) (by rw [if_neg h.2])

theorem singleton_pat {k : Const} {s t} (g : Good P H (constant k) s [t]) (hs : Unparse.reprConst H k = s)
    (hp : ∀ rest, pClosedPat full (t :: rest) = some (matchSingleton k, rest)) : GoodC P H (matchSingleton k) s [t] where
  prints := Large.succ (p := fun _ => True) (Large.all fun _ => trivial) fun n _ c => by
    show Unparse.matchSingleton H _ = _
    unparsing [Unparse.matchSingleton, hs]
  body := g.body
  starts := g.starts
  head := g.head
  look := fun _ _ _ e => nomatch e
  notStar := rfl
  notKeyword := rfl
  parses rest _ := by rw [full_at]; exact hp rest

theorem bool_good (hP : P.Lawful) (b : Bool) : ∃ s ts, GoodC P H (matchSingleton (.bool b)) s ts := by
  cases b
  · exact ⟨_, _, singleton_pat (good_false hP) rfl fun _ => rfl⟩
  · exact ⟨_, _, singleton_pat (good_true hP) rfl fun _ => rfl⟩

theorem none_good (hP : P.Lawful) : ∃ s ts, GoodC P H (matchSingleton .none) s ts :=
  ⟨_, _, singleton_pat (good_none hP) rfl fun _ => rfl⟩

/-! ### Sequences -/

theorem stop_item {sy cl : Sym} (h : sy = .comma ∨ sy = cl) (hc : patStop (.sym cl) = true) (h1 : cl ≠ .bar) (h2 : cl ≠ .kAs) {r} :
    PEnd (.sym sy :: r) := by
  rcases h with rfl | rfl
  · exact PEnd.cons rfl (by decide) (by decide)
  · exact PEnd.cons hc (by simpa using h1) (by simpa using h2)

theorem GoodPat.elem {v s ts} (g : GoodP P H v s ts) : Piece P .patElem .rbrack v s ts := by
  obtain ⟨t, r, e, ht⟩ := g.head
  refine ⟨g.body, fun sy r' h => ?_, t, r, e, atomStart_ne ht rfl⟩
  rw [patElem_of (by intro q e'; rw [e] at e'; cases e'; exact nomatch ht)]
  exact g.parses _ (stop_item h rfl (by decide) (by decide))

theorem star_elem (hP : P.Lawful) {x : String} (hx : TokOK P (.name x)) :
    Piece P .patElem .rbrack (matchStar (if x = "_" then .none else .str x)) ('*' :: x.toList) [.sym .star, .name x] := by
  refine ⟨?_, fun sy r _ => ?_, _, _, rfl, by decide⟩
  · exact (good_name (H := ⟨fun _ => true⟩) hP hx).starBody
  · rw [full_at]; rfl

theorem matchSequence_good {ps : List Val} (h : ∀ p ∈ ps, IsItem P H .patElem .rbrack p) : ∃ s ts, GoodC P H (matchSequence ps) s ts := by
  obtain ⟨ss, us, hp, hi⟩ := items_of h
  obtain ⟨uu, h1, h2⟩ := items_all (by decide) hi
  refine ⟨'[' :: (interleave (lit ", ") ss ++ [']']), .sym .lbrack :: (uu ++ [.sym .rbrack]), hp.succ fun n hn c => ?_, fun t k rest ht hf => ?_,
    ⟨_, _, rfl, by simp [exprStart]⟩, ⟨_, _, rfl, rfl⟩, fun _ _ _ e => (nomatch e), rfl, rfl, fun rest _ => ?_⟩
  · show (do Unparse.display (dispatch H n) c "[" "]" (← Unparse.attrL .MatchSequence _ .patterns)) = _
    unparsing [Unparse.display, hn c, lit]
  · have := Lx.lbrack' (h1 ']' t k rest rfl (Lx.rbrack' ht))
    simpa using this
  · rw [full_at, List.cons_append, List.append_assoc]
    show seq (full (.items .patElem .rbrack) (uu ++ .sym .rbrack :: rest)) _ = _
    rw [h2]; rfl

/-! ### Mappings -/

theorem key_good (hP : P.Lawful) {v} (h : PatKey P v) : ∃ s ts, Good P H v s ts ∧
    ∀ r, patKey (ts ++ .sym .colon :: r) = some (v, .sym .colon :: r) := by
  cases h with
  | number h =>
    obtain ⟨s, t, g, -, h1, h2, -⟩ := h.good (H := H) hP
    exact ⟨s, [t], g, fun r => (h1 _).trans (h2 _ (CEnd.cons rfl))⟩
  | str u x => obtain ⟨s, g⟩ := good_str (P := P) (H := H) (u := u) (x := x); exact ⟨s, _, g, fun _ => rfl⟩
  | bytes h => obtain ⟨s, g⟩ := good_bytes (P := P) (H := H) h; exact ⟨s, _, g, fun _ => rfl⟩
  | bool b =>
    cases b
    · exact ⟨_, _, good_false hP, fun _ => rfl⟩
    · exact ⟨_, _, good_true hP, fun _ => rfl⟩
  | none => exact ⟨_, _, good_none hP, fun _ => rfl⟩
  | @dotted x xs hx hn h =>
    obtain ⟨s, us, g, -, -, h3⟩ := dottedExpr_good (H := H) hP hx h
    refine ⟨s, _, g, fun r => ?_⟩
    show (if (attrs (name x) (us ++ .sym .colon :: r)).1.isK .Attribute then some (attrs (name x) (us ++ .sym .colon :: r)) else none) = _
    rw [h3 _ (by simp)]
    exact if_pos (dotted_isAttr hn)

theorem full_patPair {ts} (h : ∀ r, ts ≠ .sym .starStar :: r) : full .patPair ts = seq (patKey ts) fun k r =>
    match r with
    | .sym .colon :: r => seq (full .pattern r) fun v r => some (.list [k, v], r)
    | _ => none := by
  rw [full_at]; show pPatPair full ts = _
  unfold pPatPair
  split
  · exact absurd rfl (h _)
  · rfl

theorem pair_piece (hP : P.Lawful) {k v} (hk : PatKey P k) (hv : ∃ s ts, GoodP P H v s ts) : ∃ x y ts, Prints H k x ∧ Prints H v y ∧
    Piece P .patPair .rbrace (.list [k, v]) (x ++ lit ": " ++ y) ts := by
  obtain ⟨s, ts, g, hp⟩ := key_good (H := H) hP hk
  obtain ⟨s', us, g'⟩ := hv
  obtain ⟨t, r, e, ht⟩ := g.head
  refine ⟨s, s', ts ++ .sym .colon :: us, g.prints, g'.prints, ?_, fun sy r' h => ?_, t, _, by rw [e]; rfl, atomStart_ne ht rfl⟩
  · have := g.body.tail (Tail.cons (c := ':') (s := ' ' :: s') (ts := .sym .colon :: us)
      (fun t k rest ht hf => Lx.colon' (Lx.sp (g'.body t k rest ht hf)) (by simp)) rfl)
    simpa [lit] using this
  · rw [List.append_assoc, List.cons_append, full_patPair (by rw [e]; intro q e'; cases e'; exact nomatch ht), hp, seq_some]
    show seq (full .pattern _) _ = _
    rw [g'.parses _ (stop_item h rfl (by decide) (by decide))]; rfl

theorem pairs_items (hP : P.Lawful) : ∀ {kps : List (Val × Val)}, (∀ kp ∈ kps, PatKey P kp.1) → (∀ kp ∈ kps, ∃ s ts, GoodP P H kp.2 s ts) →
    ∃ ss us, (Large fun n => ∀ c, Unparse.texts (Unparse.pair (dispatch H n) c) ((kps.map (·.1)).zip (kps.map (·.2))) = .ok ss) ∧
      Items P .patPair .rbrace (kps.map dictPair) ss us ∧ ss.length = kps.length
  | [], _, _ => ⟨[], [], Large.all fun _ _ => rfl, .nil, rfl⟩
  | kp :: kps, hk, hv => by
    obtain ⟨x, y, ts, h1, h2, h3⟩ := pair_piece (H := H) hP (hk kp (by simp)) (hv kp (by simp))
    obtain ⟨ss, us, h4, h5, h6⟩ := pairs_items hP (kps := kps) (fun q hq => hk q (by simp [hq])) fun q hq => hv q (by simp [hq])
    refine ⟨_, _, ((h1.and h2).and h4).mono fun n ⟨⟨a, b⟩, d⟩ c => ?_, .cons h3 h5, by simp [h6]⟩
    simp [Unparse.texts, Unparse.pair, Unparse.ok_bind, Unparse.pure_ok, a c, b c, d c]

theorem mappingParts_none : ∀ {kps : List (Val × Val)}, mappingParts (kps.map dictPair) = some (kps.map (·.1), kps.map (·.2), .none)
  | [] => rfl
  | kp :: kps => by
    have ih := mappingParts_none (kps := kps)
    rw [List.map_cons, dictPair, mappingParts, ih]; rfl

theorem mappingParts_rest {x : String} : ∀ {kps : List (Val × Val)},
    mappingParts (kps.map dictPair ++ [.list [.str x]]) = some (kps.map (·.1), kps.map (·.2), .str x)
  | [] => rfl
  | kp :: kps => by
    have ih := mappingParts_rest (x := x) (kps := kps)
    rw [List.map_cons, dictPair, List.cons_append, mappingParts, ih]; rfl

theorem rest_piece (hP : P.Lawful) {x : String} (hx : IsCapture P x) :
    Piece P .patPair .rbrace (.list [.str x]) ('*' :: '*' :: x.toList) [.sym .starStar, .name x] := by
  refine ⟨fun t k rest ht hf => ?_, fun sy r _ => ?_, _, _, rfl, by decide⟩
  · have g := good_name (H := ⟨fun _ => true⟩) hP hx.1
    refine Lx.starStar' (g.body _ _ _ ht hf) ?_
    show (x.toList ++ t ++ rest).head? ≠ _; rw [List.append_assoc]; exact g.next _ (by simp)
  · rw [full_at]
    show (if x = "_" then none else _) = _
    rw [if_neg hx.2]; rfl

theorem mapping_of {v : Val} {vs ss us} (hi : Items P .patPair .rbrace vs ss us)
    (hp : Prints H v ('{' :: (interleave (lit ", ") ss ++ ['}']))) {ks ps rest}
    (hm : mappingParts vs = some (ks, ps, rest)) (hv : v = matchMapping ks ps rest) : ∃ s ts, GoodC P H v s ts := by
  obtain ⟨uu, h1, h2⟩ := items_all (by decide) hi
  refine ⟨_, .sym .lbrace :: (uu ++ [.sym .rbrace]), hp, fun t k rest ht hf => ?_,
    ⟨_, _, rfl, by simp [exprStart]⟩, ⟨_, _, rfl, rfl⟩, fun _ _ _ e => (nomatch e), by rw [hv]; rfl, by rw [hv]; rfl, fun rest _ => ?_⟩
  · have := Lx.lbrace' (h1 '}' t k rest rfl (Lx.rbrace' ht))
    simpa using this
  · rw [full_at, List.cons_append, List.append_assoc]
    show seq (full (.items .patPair .rbrace) (uu ++ .sym .rbrace :: rest)) _ = _
    rw [h2, seq_some]
    show (mappingParts vs).map _ = _
    rw [hm, hv]; rfl

theorem mapping_good (hP : P.Lawful) {kps : List (Val × Val)} {rest : Val} (hk : ∀ kp ∈ kps, PatKey P kp.1)
    (hv : ∀ kp ∈ kps, ∃ s ts, GoodP P H kp.2 s ts) (hr : rest = .none ∨ ∃ x, IsCapture P x ∧ rest = .str x) :
    ∃ s ts, GoodC P H (matchMapping (kps.map (·.1)) (kps.map (·.2)) rest) s ts := by
  obtain ⟨ss, us, h1, h2, h3⟩ := pairs_items hP hk hv
  rcases hr with rfl | ⟨x, hx, rfl⟩
  · refine mapping_of h2 (h1.succ fun n hn c => ?_) mappingParts_none rfl
    show Unparse.matchMapping (dispatch H n) c _ = _
    unparsing [Unparse.matchMapping, hn c, lit, Val.isNone]
  · refine mapping_of (items_append h2 (.cons (rest_piece hP hx) .nil)) (h1.succ fun n hn c => ?_) mappingParts_rest rfl
    show Unparse.matchMapping (dispatch H n) c _ = _
    have e : ss.isEmpty = (kps.map (·.2)).isEmpty := by cases ss <;> cases kps <;> simp_all
    rw [interleave_append, e]
    unparsing [Unparse.matchMapping, hn c, lit, Val.isNone, interleave]

/-! ### Classes -/

theorem full_patArg {ts} (h : ∀ x r, ts ≠ .name x :: .sym .eq :: r) : full .patArg ts = full .pattern ts := by
  rw [full_at]; show pPatArg full ts = _
  unfold pPatArg
  split
  · exact absurd rfl (h _ _)
  · rfl

theorem GoodPat.arg {v s ts} (g : GoodP P H v s ts) : Piece P .patArg .rpar v s ts := by
  obtain ⟨t, r, e, ht⟩ := g.head
  refine ⟨g.body, fun sy r' h => ?_, t, r, e, atomStart_ne ht rfl⟩
  rw [full_patArg]
  · exact g.parses _ (stop_item h rfl (by decide) (by decide))
  · intro x q e'
    subst e
    cases r with
    | nil =>
      simp only [List.cons_append, List.nil_append, List.cons.injEq, Tok.sym.injEq] at e'
      rcases h with rfl | rfl <;> exact absurd e'.2.1 (by decide)
    | cons u r =>
      simp only [List.cons_append, List.cons.injEq] at e'
      obtain ⟨rfl, rfl, -⟩ := e'
      exact g.look _ _ _ rfl rfl

theorem kw_piece (hP : P.Lawful) {x : String} {v} (hx : TokOK P (.name x)) (hv : ∃ s ts, GoodP P H v s ts) : ∃ y ts, Prints H v y ∧
    Piece P .patArg .rpar (keywordOf (.str x) v) (x.toList ++ lit "=" ++ y) ts := by
  obtain ⟨s, ts, g⟩ := hv
  refine ⟨s, .name x :: .sym .eq :: ts, g.prints, fun t k rest ht hf => ?_, fun sy r h => ?_, _, _, rfl, by simp⟩
  · have h1 := Lx.eq' (g.body _ _ _ ht hf) (by
      obtain ⟨c, w, rfl, hc⟩ := g.starts
      rintro e; cases e; simp [exprStart, Reading.start, isLetter, isDigit] at hc)
    have := Lx.nameThen hP hx h1 (Follow.cons rfl)
    simpa [lit] using this
  · rw [full_at, List.cons_append, List.cons_append]; show seq (full .pattern _) _ = _
    rw [g.parses _ (stop_item h rfl (by decide) (by decide))]; rfl

def kwTree (kw : String × Val) : Val := keywordOf (.str kw.1) kw.2

theorem kws_items (hP : P.Lawful) : ∀ {kws : List (String × Val)}, (∀ kw ∈ kws, TokOK P (.name kw.1)) → (∀ kw ∈ kws, ∃ s ts, GoodP P H kw.2 s ts) →
    ∃ ss us, (Large fun n => ∀ c, Unparse.texts (Unparse.kwdPattern (dispatch H n) c) ((kws.map fun kw => Val.str kw.1).zip (kws.map (·.2))) = .ok ss) ∧
      Items P .patArg .rpar (kws.map kwTree) ss us ∧ ss.length = kws.length
  | [], _, _ => ⟨[], [], Large.all fun _ _ => rfl, .nil, rfl⟩
  | kw :: kws, hk, hv => by
    obtain ⟨y, ts, h1, h2⟩ := kw_piece (H := H) hP (hk kw (by simp)) (hv kw (by simp))
    obtain ⟨ss, us, h4, h5, h6⟩ := kws_items hP (kws := kws) (fun q hq => hk q (by simp [hq])) fun q hq => hv q (by simp [hq])
    refine ⟨_, _, (h1.and h4).mono fun n ⟨a, d⟩ c => ?_, .cons h2 h5, by simp [h6]⟩
    simp [Unparse.texts, Unparse.kwdPattern, Unparse.write, Unparse.ok_bind, Unparse.pure_ok, a c, d c]

theorem items_good {nt close} {vs : List Val} (h : ∀ v ∈ vs, ∃ s ts, GoodP P H v s ts) (hp : ∀ {v s ts}, GoodP P H v s ts → Piece P nt close v s ts) :
    ∀ v ∈ vs, IsItem P H nt close v := fun v hv => by
  obtain ⟨s, ts, g⟩ := h v hv; exact ⟨s, ts, g.prints, hp g⟩

theorem texts_length {f : Val → Unparse.R} : ∀ {vs ss}, Unparse.texts f vs = .ok ss → ss.length = vs.length
  | [], _, h => by cases h; rfl
  | v :: vs, ss, h => by
    unfold Unparse.texts at h
    cases h1 : f v with
    | error => rw [h1] at h; exact nomatch h
    | ok x =>
      cases h2 : Unparse.texts f vs with
      | error => rw [h1, Unparse.ok_bind, h2] at h; exact nomatch h
      | ok xs => rw [h1, Unparse.ok_bind, h2] at h; cases h; simp [texts_length h2]

theorem PrintsL.length {vs ss} (h : PrintsL H vs ss) : ss.length = vs.length := by
  obtain ⟨N, h⟩ := h
  exact texts_length (h N (Nat.le_refl _) ⟨0, default⟩)

theorem class_good (hP : P.Lawful) {x : String} {xs : List String} {ps : List Val} {kws : List (String × Val)} (hx : IsName P x)
    (hxs : ∀ y ∈ xs, IsName P y) (hp : ∀ p ∈ ps, ∃ s ts, GoodP P H p s ts) (hk : ∀ kw ∈ kws, IsName P kw.1)
    (hq : ∀ kw ∈ kws, ∃ s ts, GoodP P H kw.2 s ts) :
    ∃ s ts, GoodC P H (matchClass (dottedExpr x xs) ps (kws.map fun kw => .str kw.1) (kws.map (·.2))) s ts := by
  obtain ⟨s, us, g, hd1, hd2, hd3⟩ := dottedExpr_good (H := H) hP hx hxs
  obtain ⟨ss, ts1, hpr, hi⟩ := items_of (items_good hp GoodPat.arg)
  obtain ⟨ss', ts2, hpr', hi', hl'⟩ := kws_items (H := H) hP hk hq
  have hl := PrintsL.length hpr
  obtain ⟨uu, h1, h2⟩ := items_all (by decide) (items_append hi hi')
  have hcp : callParts (ps ++ kws.map kwTree) = some (ps, kws.map kwTree) := callParts_ok
    (fun a h => by obtain ⟨_, _, g⟩ := hp a h; exact g.notKeyword)
    (fun k h => by obtain ⟨kw, -, rfl⟩ := List.mem_map.1 h; rfl)
  have hfin : ∀ r, namePattern full (dottedExpr x xs) (.sym .lpar :: (uu ++ .sym .rpar :: r)) =
      some (matchClass (dottedExpr x xs) ps (kws.map fun kw => .str kw.1) (kws.map (·.2)), r) := by
    intro r
    show seq (full (.items .patArg .rpar) (uu ++ .sym .rpar :: r)) (classPattern (dottedExpr x xs)) = _
    rw [h2, seq_some]
    unfold classPattern
    show (callParts (ps ++ kws.map kwTree)).map _ = _
    rw [hcp]
    simp [List.map_map, Function.comp_def, kwTree, keywordName, keywordValue, keywordOf, mk]
  refine ⟨s ++ '(' :: (interleave (lit ", ") (ss ++ ss') ++ [')']), .name x :: (us ++ .sym .lpar :: (uu ++ [.sym .rpar])),
    ((g.prints.and hpr).and hpr').succ fun n ⟨⟨a, b⟩, d⟩ c => ?_, fun t k rest ht hf => ?_, ?_, ⟨_, _, rfl, rfl⟩, ?_, rfl, rfl, fun rest hr => ?_⟩
  · show Unparse.matchClass (dispatch H n) c _ = _
    have e : ss.isEmpty = ps.isEmpty := by cases ss <;> cases ps <;> simp_all
    have e' : ss'.isEmpty = (kws.map fun kw => Val.str kw.1).isEmpty := by cases ss' <;> cases kws <;> simp_all
    rw [interleave_append, e, e']
    unparsing [Unparse.matchClass, a c, b c, d c, lit]
  · have := g.lx (Lx.lpar' (h1 ')' t k rest rfl (Lx.rpar' ht))) (Follow.cons rfl) (by simp)
    simpa using this
  · obtain ⟨c, w, rfl, hc⟩ := g.starts; exact ⟨c, _, rfl, hc⟩
  · intro y t r e
    by_cases hn : xs = []
    · rw [hd2 hn] at e; cases e; decide
    · obtain ⟨_, q, rfl⟩ := hd1 hn; cases e; decide
  · have e : .name x :: (us ++ .sym .lpar :: (uu ++ [.sym .rpar])) ++ rest = .name x :: (us ++ .sym .lpar :: (uu ++ .sym .rpar :: rest)) := by simp
    rw [e, full_at]; show nameStart full x _ = _
    have h3 := hd3 (.sym .lpar :: (uu ++ .sym .rpar :: rest)) (by simp)
    by_cases hn : xs = []
    · subst hn
      rw [hd2 rfl, List.nil_append]
      exact hfin rest
    · obtain ⟨y, q, rfl⟩ := hd1 hn
      show namePattern full (attrs (name x) (.sym .dot :: .name y :: q ++ _)).1 (attrs (name x) (.sym .dot :: .name y :: q ++ _)).2 = _
      rw [h3]; exact hfin rest

/-! ### Alternatives and `as` -/

theorem or_tail : ∀ {ps : List Val}, (∀ p ∈ ps, ∃ s ts, GoodC P H p s ts) → ∃ ss us, PrintsL H ps ss ∧
    Tail P (ss.flatMap (lit " | " ++ ·)) us ∧ (us = [] ∨ ∃ r, us = .sym .bar :: r) ∧
    ∀ rest, CEnd rest → (∀ r, rest ≠ .sym .bar :: r) → full .orRest (us ++ rest) = some (.list ps, rest)
  | [], _ => ⟨[], [], PrintsL.nil, Tail.nil, .inl rfl, fun rest _ hr => by
      rw [full_at]; show pOrRest full rest = _
      unfold pOrRest
      split
      · exact absurd rfl (hr _)
      · rfl⟩
  | p :: ps, h => by
    obtain ⟨s, ts, g⟩ := h p (by simp)
    obtain ⟨ss, us, h1, h2, h3, h4⟩ := or_tail (ps := ps) fun q hq => h q (by simp [hq])
    refine ⟨s :: ss, .sym .bar :: (ts ++ us), PrintsL.cons g.prints h1, ?_, .inr ⟨_, rfl⟩, fun rest hr hb => ?_⟩
    · rw [List.flatMap_cons]
      refine Tail.cons (c := ' ') (s := '|' :: ' ' :: (s ++ ss.flatMap (lit " | " ++ ·))) (fun t k rest ht hf => ?_) rfl
      have h5 := (g.body.tail h2) t k rest ht hf
      have := Lx.op (c := '|') (w := []) (s := .bar) (Lx.sp h5) rfl (by simp [Reading.start, isLetter]) rfl (by decide) (by decide)
        (fun r hr => by
          cases r with
          | nil => exact nomatch hr
          | cons d r => cases hr; rfl)
      exact Lx.sp (by simpa using this)
    · rw [full_at, List.cons_append, List.append_assoc]; show seq (full .closedPat (ts ++ (us ++ rest))) _ = _
      rw [g.parses _ (by
        rcases h3 with rfl | ⟨r, rfl⟩
        · exact hr
        · exact CEnd.cons rfl), seq_some, h4 rest hr hb]; rfl

/-- Two or more alternatives, before `as` or the end of the pattern. -/
theorem or_parts {ps : List Val} (hl : 2 ≤ ps.length) (h : ∀ p ∈ ps, ∃ s ts, GoodC P H p s ts) : ∃ s ts, GoodP P H (matchOr ps) s ts := by
  obtain ⟨p, q, ps, rfl⟩ : ∃ p q r, ps = p :: q :: r := by
    match ps, hl with
    | p :: q :: r, _ => exact ⟨p, q, r, rfl⟩
  obtain ⟨s, ts, g⟩ := h p (by simp)
  obtain ⟨ss, us, h1, h2, h3, h4⟩ := or_tail (ps := q :: ps) fun r hr => h r (by simp_all)
  refine ⟨s ++ ss.flatMap (lit " | " ++ ·), ts ++ us, (g.prints.and h1).succ fun n ⟨a, b⟩ c => ?_, g.body.tail h2, ?_, ?_, ?_, rfl, rfl, fun rest hr => ?_⟩
  · show Unparse.matchOr (dispatch H n) c _ = _
    have e : Unparse.texts (dispatch H n c) (p :: q :: ps) = .ok (s :: ss) := by
      rw [Unparse.texts, a c, Unparse.ok_bind, b c]; rfl
    rw [← interleave_cons]
    unparsing [Unparse.matchOr, e]
  · obtain ⟨c, w, rfl, hc⟩ := g.starts; exact ⟨c, _, rfl, hc⟩
  · obtain ⟨t, r, rfl, ht⟩ := g.head; exact ⟨t, _, rfl, ht⟩
  · intro x t r e
    obtain ⟨t', r', rfl, -⟩ := g.head
    cases r' with
    | nil =>
      rcases h3 with rfl | ⟨r'', rfl⟩
      · exact nomatch e
      · cases e; decide
    | cons u r'' =>
      simp only [List.cons_append, List.cons.injEq] at e
      obtain ⟨rfl, rfl, -⟩ := e
      exact g.look _ _ _ rfl
  · rw [full_at, List.append_assoc]; show pPattern full _ = _
    unfold pPattern
    rw [g.parses _ (by
        rcases h3 with rfl | ⟨r, rfl⟩
        · exact hr.c
        · exact CEnd.cons rfl), seq_some, h4 rest hr.c (fun r e => by subst e; exact (hr _ _ rfl).2.1 rfl), seq_some]
    show patAs (matchOr (p :: q :: ps)) rest = _
    unfold patAs
    split
    · exact absurd rfl (hr _ _ rfl).2.2
    · rfl

/-- `p as x`, given how `p` is written there. -/
theorem as_of (hP : P.Lawful) {p : Val} {x : String} {s ts} (hx : IsCapture P x)
    (hp : Large fun n => ∀ c, (dispatch H n c p).map (Unparse.orParens p) = .ok s) (hn : p.isNone = false)
    (body : Body P s ts) (starts : ∃ c w, s = c :: w ∧ exprStart P c = true) (head : ∃ t r, ts = t :: r ∧ atomStart t = true)
    (look : ∀ x t r, ts = .name x :: t :: r → t ≠ .sym .eq)
    (parses : ∀ rest, CEnd rest → full .closedPat (ts ++ rest) = some (p, rest)) : ∃ s' ts', GoodP P H (matchAs p (.str x)) s' ts' := by
  refine ⟨s ++ (lit " as " ++ x.toList), ts ++ [.sym .kAs, .name x], hp.succ fun n hn' c => ?_,
    body.tail (Tail.cons (c := ' ') (s := 'a' :: 's' :: ' ' :: x.toList) ?_ rfl), ?_, ?_, ?_, rfl, rfl, fun rest hr => ?_⟩
  · show Unparse.matchAs (dispatch H n) c _ = _
    have h := hn' c
    cases h1 : dispatch H n c p with
    | error => rw [h1] at h; exact nomatch h
    | ok y =>
      rw [h1] at h
      have h : Unparse.orParens p y = s := by injection h
      have hs : (Val.str x).isNone = false := rfl
      simp [Unparse.matchAs, Unparse.attr_here, Unparse.attr_there, Unparse.ok_bind, Unparse.pure_ok, Unparse.write, hn, hs, h1, h]
  · exact ((Body.name hP hx.1).word hP (x := "as ") (k := .kAs) rfl).sp
  · obtain ⟨c, w, rfl, hc⟩ := starts; exact ⟨c, _, rfl, hc⟩
  · obtain ⟨t, r, rfl, ht⟩ := head; exact ⟨t, _, rfl, ht⟩
  · intro y t r e
    obtain ⟨t', r', rfl, -⟩ := head
    cases r' with
    | nil => cases e; decide
    | cons u r'' =>
      simp only [List.cons_append, List.cons.injEq] at e
      obtain ⟨rfl, rfl, -⟩ := e
      exact look _ _ _ rfl
  · rw [full_at, List.append_assoc]; show pPattern full _ = _
    unfold pPattern
    have h0 := parses ([Tok.sym .kAs, .name x] ++ rest) (CEnd.cons rfl)
    rw [h0, seq_some]
    have h1 : full .orRest ([Tok.sym .kAs, .name x] ++ rest) = some (.list [], [Tok.sym .kAs, .name x] ++ rest) := by rw [full_at]; rfl
    rw [h1, seq_some]
    show (if x = "_" then none else _) = _
    rw [if_neg hx.2]; rfl

theorem closed_notOr {p : Val} (h : ClosedPattern P p) : p.isK .MatchOr = false ∧ p.isNone = false := by
  cases h <;> exact ⟨rfl, rfl⟩

/-! ### All patterns -/

mutual
theorem ClosedPattern.good (hP : P.Lawful) {p : Val} : ClosedPattern P p → ∃ s ts, GoodC P H p s ts
  | .value h => value_good hP h
  | .bool b => bool_good hP b
  | .none => none_good hP
  | .wildcard => ⟨_, _, wildcard_good hP⟩
  | .capture h => ⟨_, _, capture_good hP h⟩
  | .sequence h => matchSequence_good fun p hp => (h p hp).item hP
  | .mapping hk hp hr => mapping_good hP hk (fun kp hkp => (hp kp hkp).good hP) hr
  | .class hx hxs hp hk hq => class_good hP hx hxs (fun p h => (hp p h).good hP) hk fun kw h => (hq kw h).good hP
theorem SeqItem.item (hP : P.Lawful) {p : Val} : SeqItem P p → IsItem P H .patElem .rbrack p
  | .pattern h => by
    obtain ⟨s, ts, g⟩ := h.good hP
    exact ⟨s, ts, g.prints, g.elem⟩
  | @SeqItem.star _ x h => by
    have := star_elem hP h.1
    rw [if_neg h.2] at this
    exact ⟨_, _, Large.succ (p := fun _ => True) (Large.all fun _ => trivial) (fun n _ c => by
      show Unparse.matchStar _ = _
      unparsing [Unparse.matchStar, Val.isNone]), this⟩
  | .starAny => ⟨_, _, Large.succ (p := fun _ => True) (Large.all fun _ => trivial) (fun n _ c => by
      show Unparse.matchStar _ = _
      unparsing [Unparse.matchStar, Val.isNone]; rfl), star_elem hP underscore⟩
theorem Pattern.good (hP : P.Lawful) {p : Val} : Pattern P p → ∃ s ts, GoodP P H p s ts
  | .closed h => by
    obtain ⟨s, ts, g⟩ := h.good hP
    exact ⟨s, ts, g.pat⟩
  | .or hl h => or_parts hl fun p hp => (h p hp).good hP
  | .as h hx => by
    obtain ⟨s, ts, g⟩ := h.good hP
    obtain ⟨h1, h2⟩ := closed_notOr h
    exact as_of hP hx (g.prints.mono fun n hn c => by rw [hn c]; simp [Except.map, Unparse.orParens, h1]) h2 g.body g.starts g.head g.look g.parses
  | @Pattern.orAs _ ps x hl h hx => by
    obtain ⟨s, ts, g⟩ := or_parts (H := H) hl fun p hp => (h p hp).good hP
    obtain ⟨h1, h2⟩ := g.parens
    exact as_of hP hx (g.prints.mono fun n hn c => by
        rw [hn c]; rfl) rfl h1 ⟨_, _, rfl, by simp [exprStart]⟩ ⟨_, _, rfl, rfl⟩
      (fun _ _ _ e => nomatch e) fun rest _ => h2 rest
end

end Mcpyrate.PyText
