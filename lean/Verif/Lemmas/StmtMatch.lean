import Verif.Lemmas.PatternParts
/-
`match` and `type` statements.
-/
namespace Mcpyrate.PyText
open Py
open Unparse (Host Large Ctx Prints PrintsL PrintsO lit interleave dispatch fill)

variable {P : Reading} {H : Host}

/-- A name and a space. -/
theorem Body.nameWord (hP : P.Lawful) {x : String} {s ts} (hx : TokOK P (.name x)) (h : Body P s ts) :
    Body P (x.toList ++ ' ' :: s) (.name x :: ts) := fun t k rest ht hf => by
  have := Lx.nameThen hP hx (Lx.sp (h t k rest ht hf)) (Follow.cons rfl)
  simpa using this

theorem soft {x : String} (h : ∃ c w, x.toList = c :: w ∧ isLetter c = true ∧ w.all isLetter = true) (hk : keyword? x = none) :
    TokOK P (.name x) := by
  obtain ⟨c, w, e, h1, h2⟩ := h
  refine ⟨⟨c, w, e, by simp [Reading.start, h1]⟩, fun d hd => ?_, hk⟩
  rw [e] at hd
  rw [List.all_eq_true] at h2
  rcases List.mem_cons.1 hd with rfl | hd
  · simp [Reading.cont, h1]
  · simp [Reading.cont, h2 d hd]

theorem case_name : TokOK P (.name "case") := soft ⟨'c', "ase".toList, rfl, by decide, by decide⟩ (by decide)
theorem match_name : TokOK P (.name "match") := soft ⟨'m', "atch".toList, rfl, by decide, by decide⟩ (by decide)
theorem type_name : TokOK P (.name "type") := soft ⟨'t', "ype".toList, rfl, by decide, by decide⟩ (by decide)

/-! ### Cases -/

/-- The `case` clause is written as these lines, and read back. -/
structure GoodCase (P : Reading) (H : Host) (v : Val) (core : Nat → Str) (toks : List Tok) (d : Nat) : Prop where
  prints : Large fun n => ∀ c, dispatch H n c v = .ok ('\n' :: (spaces c.indent ++ core c.indent))
  lines : Lines P core (.name "case" :: toks) d
  starts : Starts core
  finishes : Finishes core
  parses : ∀ r, caseRest full (toks ++ closing d r) = some (v, r)

def CaseGood (P : Reading) (H : Host) (v : Val) : Prop := ∃ core toks d, GoodCase P H v core toks d

/-- The pattern and the guard, as they are written in the header. -/
theorem case_header (hP : P.Lawful) {p g : Val} (hp : Pattern P p) (hg : OptG P H g) : ∃ s ts, Body P s ts ∧
    (Large fun n => ∀ c, ∃ x y, dispatch H n c p = .ok x ∧ (if g.isNone then Except.ok [] else (dispatch H n c g).map (lit " if " ++ ·)) = .ok y ∧
      (if g.isNone then x else Unparse.orParens p x) ++ y = s) ∧
    ∀ q, ∃ r, full .pattern (ts ++ .sym .colon :: q) = some (p, r) ∧ guard full r = some (g, .sym .colon :: q) := by
  obtain ⟨s, ts, gp⟩ := hp.good (H := H) hP
  rcases hg with rfl | ⟨u, us, gg⟩
  · exact ⟨s, ts, gp.body, gp.prints.mono fun n h c => ⟨s, [], h c, rfl, by simp [Val.isNone]⟩,
      fun q => ⟨_, gp.parses _ (PEnd.cons rfl (by decide) (by decide)), rfl⟩⟩
  · have hn := gg.notNone
    have hguard : ∀ q, guard full (.sym .kIf :: (us ++ .sym .colon :: q)) = some (g, .sym .colon :: q) := fun q => gg.expr (NoCont.none rfl)
    have tail : Tail P (lit " if " ++ u) (.sym .kIf :: us) :=
      Tail.cons (c := ' ') (s := 'i' :: 'f' :: ' ' :: u) (gg.body.word hP (x := "if ") (k := .kIf) rfl).sp rfl
    by_cases ho : p.isK .MatchOr = true
    · obtain ⟨h1, h2⟩ := gp.parens
      refine ⟨_, _, h1.tail tail, (gp.prints.and gg.prints).mono fun n ⟨a, b⟩ c => ⟨s, _, a c, by rw [hn, b c]; rfl, ?_⟩, fun q => ?_⟩
      · rw [hn]; simp [Unparse.orParens, ho, lit]
      · have h3 := h2 (.sym .kIf :: (us ++ .sym .colon :: q))
        refine ⟨_, ?_, hguard q⟩
        have := pattern_closed h3 (PEnd.cons rfl (by decide) (by decide))
        simpa using this
    · refine ⟨_, _, gp.body.tail tail, (gp.prints.and gg.prints).mono fun n ⟨a, b⟩ c => ⟨s, _, a c, by rw [hn, b c]; rfl, ?_⟩, fun q => ?_⟩
      · rw [hn]; simp [Unparse.orParens, ho]
      · refine ⟨_, ?_, hguard q⟩
        have := gp.parses (.sym .kIf :: (us ++ .sym .colon :: q)) (PEnd.cons rfl (by decide) (by decide))
        simpa using this

theorem case_ok (hP : P.Lawful) {p g : Val} {b : List Val} (hp : Pattern P p) (hg : OptG P H g) (hn : b ≠ []) (hb : ∀ s ∈ b, S P H s) :
    CaseGood P H (caseOf p g b) := by
  obtain ⟨s, ts, h1, h2, h3⟩ := case_header hP hp hg
  obtain ⟨bt, tb, db, blk⟩ := blk_of hn hb
  refine ⟨fun i => "case".toList ++ ' ' :: s ++ bt i, ts ++ tb, db, (h2.and blk.prints).succ fun n ⟨h, hbt⟩ c => ?_,
    blk.header (h1.nameWord hP case_name), fun i => ⟨'c', _, rfl, by decide⟩, fun i => ?_, fun r => ?_⟩
  · obtain ⟨x, y, e1, e2, e3⟩ := h c
    show Unparse.matchCase (dispatch H n) c _ = _
    rw [← e3]
    by_cases hg : g.isNone = true
    · rw [if_pos hg] at e2
      cases e2
      simp [Unparse.matchCase, Unparse.attr_here, Unparse.attr_there, Unparse.ok_bind, Unparse.pure_ok, e1, hbt c, hg, fill, spaces, lit]
    · rw [if_neg hg] at e2
      cases h4 : dispatch H n c g with
      | error => rw [h4] at e2; exact nomatch e2
      | ok z =>
        rw [h4] at e2
        cases e2
        simp [Unparse.matchCase, Unparse.attr_here, Unparse.attr_there, Unparse.ok_bind, Unparse.pure_ok, e1, hbt c, hg, h4, fill, spaces, lit]
  · obtain ⟨w, c, e, hc⟩ := blk.finishes i
    exact ⟨"case".toList ++ ' ' :: s ++ w, c, by simp [e], hc⟩
  · obtain ⟨q, rfl⟩ := blk.head
    obtain ⟨r', e1, e2⟩ := h3 (q ++ closing db r)
    have hb := blk.parses r
    rw [List.cons_append] at hb
    unfold caseRest
    rw [List.append_assoc, List.cons_append, e1, seq_some, e2, seq_some, hb]; rfl

/-- The same for one or more clauses. -/
structure GoodCases (P : Reading) (H : Host) (vs : List Val) (core : Nat → Str) (toks : List Tok) (d : Nat) : Prop where
  prints : Large fun n => ∀ c, Unparse.concat (dispatch H n c) vs = .ok ('\n' :: (spaces c.indent ++ core c.indent))
  lines : Lines P core (.name "case" :: toks) d
  starts : Starts core
  finishes : Finishes core
  parses : ∀ r, full .cases (.name "case" :: (toks ++ closing d (.dedent :: r))) = some (.list vs, r)

theorem cases_cons {r v r' l r''} (h : caseRest full r = some (v, r')) (h' : full .cases r' = some (.list l, r'')) :
    full .cases (.name "case" :: r) = some (.list (v :: l), r'') := by
  rw [full_at]
  show seq (caseRest full r) _ = _
  rw [h, seq_some, h']; rfl

theorem cases_good : ∀ {vs : List Val}, vs ≠ [] → (∀ v ∈ vs, CaseGood P H v) → ∃ core toks d, GoodCases P H vs core toks d
  | [], h, _ => absurd rfl h
  | [v], _, h => by
    obtain ⟨core, toks, d, g⟩ := h v (by simp)
    refine ⟨core, toks, d, g.prints.mono fun n hn c => ?_, g.lines, g.starts, g.finishes, fun r =>
      cases_cons (g.parses _) (by rw [full_at]; rfl)⟩
    have := concat_cons (vs := []) (t := []) (hn c) rfl
    simpa using this
  | v :: w :: vs, _, h => by
    obtain ⟨core, toks, d, g⟩ := h v (by simp)
    obtain ⟨core', toks', d', g'⟩ := cases_good (vs := w :: vs) (by simp) fun x hx => h x (by simp_all)
    refine ⟨fun i => core i ++ ([] ++ '\n' :: (spaces i ++ core' i)), toks ++ .newline :: (List.replicate d .dedent ++ .name "case" :: toks'), d',
      (g.prints.and g'.prints).mono fun n ⟨a, b⟩ c => ?_, Lines.next (.inl rfl) g.lines g'.lines g'.starts, fun i => ?_, fun i => ?_, fun r => ?_⟩
    · rw [concat_cons (a c) (b c)]; simp
    · obtain ⟨c, r, e, hc⟩ := g.starts i; exact ⟨c, r ++ ([] ++ '\n' :: (spaces i ++ core' i)), by simp [e], hc⟩
    · obtain ⟨x, c, e, hc⟩ := g'.finishes i
      exact ⟨core i ++ ([] ++ '\n' :: (spaces i ++ x)), c, by simp [e], hc⟩
    · have e : toks ++ .newline :: (List.replicate d .dedent ++ .name "case" :: toks') ++ closing d' (.dedent :: r) =
          toks ++ closing d (.name "case" :: (toks' ++ closing d' (.dedent :: r))) := by simp [closing]
      rw [e]
      exact cases_cons (g.parses _) (g'.parses r)

theorem s_match (hP : P.Lawful) {a : Val} {cs : List Val} (ha : G P H a) (hn : cs ≠ []) (hc : ∀ c ∈ cs, CaseGood P H c) :
    S P H (matchTree a cs) := by
  obtain ⟨s, ts, g⟩ := ha
  obtain ⟨core, toks, d, gc⟩ := cases_good hn hc
  have hb := g.body.nameWord hP match_name
  have hl := hb.before (gc.lines.block (pre := []) (.inl rfl) gc.starts) fun i rest => After.cons rfl
  refine ⟨[], _, _, _, (g.prints.and gc.prints).succ fun n ⟨h1, h2⟩ c => ?_, .inl rfl, hl, fun i => ⟨'m', _, rfl, by decide⟩, fun i => ?_,
    ⟨_, _, rfl, by simp, rfl⟩, fun r _ => ?_⟩
  · show Unparse.matchStmt (dispatch H n) c _ = _
    unparsing [Unparse.matchStmt, h1 c, h2 c.enter]
    simp [fill, spaces, lit, Ctx.enter]
  · obtain ⟨w, c, e, hc⟩ := gc.finishes (i + 1)
    exact ⟨"match".toList ++ ' ' :: s ++ ':' :: ([] ++ '\n' :: (spaces (i + 1) ++ w)), c, by simp [e], hc⟩
  · rw [closing_succ, List.append_assoc, List.cons_append, stmt_name]
    have ho : opensBlock (ts ++ (.sym .colon :: .newline :: .indent :: .name "case" :: toks ++ closing d (.dedent :: r))) = true := by
      have := opensBlock_line (r := .indent :: .name "case" :: toks ++ closing d (.dedent :: r)) (ts := ts ++ [.sym .colon])
        (by have := g.body.noNewline; simp [this])
      simpa using this
    unfold nameLine
    rw [if_pos ⟨rfl, ho⟩]
    show seq (full .expr _) _ = _
    have he := g.expr (rest := .sym .colon :: .newline :: .indent :: .name "case" :: toks ++ closing d (.dedent :: r)) (NoCont.none rfl)
    rw [he, seq_some]
    show seq (full .cases (.name "case" :: (toks ++ closing d (.dedent :: r)))) _ = _
    rw [gc.parses]; rfl

/-! ### `type` -/

theorem typeVar_item (hP : P.Lawful) {x : String} {b : Val} (hx : IsName P x) (hb : OptG P H b) :
    IsItem P H .typeParam .rbrack (typeVarOf x b) := by
  rcases hb with rfl | ⟨s, ts, g⟩
  · refine ⟨x.toList, [.name x], Large.succ (p := fun _ => True) (Large.all fun _ => trivial) (fun n _ c => ?_), Body.name hP hx,
      fun sy r h => ?_, _, _, rfl, by simp⟩
    · show Unparse.typeVar (dispatch H n) c _ = _
      unparsing [Unparse.typeVar, Val.isNone]
    · rw [full_at]
      rcases h with rfl | rfl <;> rfl
  · have hn := g.notNone
    refine ⟨x.toList ++ ':' :: ' ' :: s, .name x :: .sym .colon :: ts, g.prints.succ fun n h c => ?_, ?_, fun sy r h => ?_, _, _, rfl, by simp⟩
    · show Unparse.typeVar (dispatch H n) c _ = _
      unparsing [Unparse.typeVar, hn, h c, lit]
    · exact (Body.name hP hx).tail (Tail.cons (c := ':') (s := ' ' :: s) (ts := .sym .colon :: ts)
        (fun t k rest ht hf => Lx.colon' (Lx.sp (g.body t k rest ht hf)) (by simp)) rfl)
    · rw [full_at, List.cons_append, List.cons_append]; show seq (full .expr _) _ = _
      rw [g.expr (noCont_item rfl h)]; rfl

theorem typeStar_item (hP : P.Lawful) {k : K} {x : String} (hk : k = .TypeVarTuple ∨ k = .ParamSpec) (hx : IsName P x) :
    IsItem P H .typeParam .rbrack (typeStarOf k x) := by
  have g := good_name (H := H) hP hx
  rcases hk with rfl | rfl
  · refine ⟨'*' :: x.toList, [.sym .star, .name x], Large.succ (p := fun _ => True) (Large.all fun _ => trivial) (fun n _ c => ?_), g.starBody,
      fun sy r h => ?_, _, _, rfl, by decide⟩
    · show Unparse.starName .TypeVarTuple "*" _ = _
      unparsing [Unparse.starName, lit]
    · rw [full_at]; rfl
  · refine ⟨'*' :: '*' :: x.toList, [.sym .starStar, .name x], Large.succ (p := fun _ => True) (Large.all fun _ => trivial) (fun n _ c => ?_), ?_,
      fun sy r h => ?_, _, _, rfl, by decide⟩
    · show Unparse.starName .ParamSpec "**" _ = _
      unparsing [Unparse.starName, lit]
    · intro t k rest ht hf
      refine Lx.starStar' (g.body _ _ _ ht hf) ?_
      show (x.toList ++ t ++ rest).head? ≠ _; rw [List.append_assoc]; exact g.next _ (by simp)
    · rw [full_at]; rfl

theorem s_typeAlias (hP : P.Lawful) {x : String} {ps : List Val} {a : Val} (hx : IsName P x)
    (hp : ∀ p ∈ ps, IsItem P H .typeParam .rbrack p) (ha : G P H a) : S P H (typeAliasOf x ps a) := by
  obtain ⟨s, ts, g⟩ := ha
  obtain ⟨ss, us, hpr, hi⟩ := items_of hp
  have hv : Tail P (' ' :: '=' :: ' ' :: s) (.sym .eq :: ts) :=
    Tail.cons (c := ' ') (s := '=' :: ' ' :: s) (fun t k rest ht hf => Lx.sp (Lx.eq' (Lx.sp (g.body t k rest ht hf)) (by simp))) rfl
  have hval : ∀ r, typeValue full x ps (.sym .eq :: (ts ++ .newline :: r)) = some (typeAliasOf x ps a, r) := by
    intro r
    show seq (full .expr (ts ++ .newline :: r)) _ = _
    rw [g.expr (NoCont.none rfl)]; rfl
  -- the parameters, and what follows them
  obtain ⟨q, qt, h1, h2, h3⟩ : ∃ q qt, (if ps.isEmpty then [] else lit "[" ++ interleave (lit ", ") ss ++ lit "]") = q ∧
      Body P (x.toList ++ q) (.name x :: qt) ∧
      ∀ r, typeRest full x (qt ++ (.sym .eq :: (ts ++ .newline :: r))) = some (typeAliasOf x ps a, r) := by
    cases hi with
    | nil => exact ⟨[], [], rfl, by simpa using Body.name hP hx, fun r => hval r⟩
    | @cons v s' ts' vs ss us hv' hs =>
      refine ⟨'[' :: (s' ++ ss.flatMap (lit ", " ++ ·) ++ [']']), .sym .lbrack :: (ts' ++ us ++ [.sym .rbrack]), ?_, ?_, fun r => ?_⟩
      · simp [lit, interleave_cons]
      · intro t k rest ht hf
        have := Lx.nameThen hP hx (Lx.lbrack' ((hv'.body.tail hs.tail) _ _ rest (Lx.rbrack' ht) (After.cons rfl))) (Follow.cons rfl)
        simpa using this
      · have hip := items_parse (r := .sym .eq :: (ts ++ .newline :: r)) (by decide) hv' hs
        obtain ⟨t, q, rfl, ht⟩ := hv'.head
        have e : .sym .lbrack :: (t :: q ++ us ++ [.sym .rbrack]) ++ .sym .eq :: (ts ++ .newline :: r) =
            .sym .lbrack :: t :: (q ++ us ++ .sym .rbrack :: .sym .eq :: (ts ++ .newline :: r)) := by simp
        have e' : t :: q ++ us ++ .sym .rbrack :: .sym .eq :: (ts ++ .newline :: r) =
            t :: (q ++ us ++ .sym .rbrack :: .sym .eq :: (ts ++ .newline :: r)) := by simp
        rw [e'] at hip
        rw [e]
        unfold typeRest
        split
        · rename_i e; cases e; exact absurd rfl ht
        · rename_i e; cases e; rw [hip, seq_some]; exact hval r
        · rename_i h; exact (h _ rfl).elim
  have hb := (h2.tail hv).nameWord hP type_name
  refine ⟨[], fun _ => "type".toList ++ ' ' :: (x.toList ++ q ++ ' ' :: '=' :: ' ' :: s), _, 0, ((g.prints.and hpr).succ fun n ⟨h4, h5⟩ c => ?_), .inl rfl,
    hb.lines, fun _ => ⟨'t', _, rfl, by decide⟩, fun _ => ?_, ⟨_, _, rfl, by simp, rfl⟩, fun r _ => ?_⟩
  · show Unparse.typeAlias (dispatch H n) c _ = _
    have hname : dispatch H n c (name x .Store) = .ok x.toList := by
      cases n with
      | zero => cases h4 c
      | succ n =>
        show (do Unparse.write (← Unparse.attr .Name _ .id)) = _
        unparsing []
    unparsing [Unparse.typeAlias, h4 c, h5 c, hname]
    rw [← h1]
    simp [fill, spaces, lit]
  · obtain ⟨w, c, e, hc⟩ := g.fin
    exact ⟨"type".toList ++ ' ' :: (x.toList ++ q ++ ' ' :: '=' :: ' ' :: w), c, by simp [e], hc⟩
  · have := h3 r
    rw [show (Tok.name "type" :: (.name x :: qt ++ .sym .eq :: ts) ++ closing 0 r) =
      .name "type" :: .name x :: (qt ++ .sym .eq :: (ts ++ .newline :: r)) by simp [closing], stmt_name]
    exact this

end Mcpyrate.PyText
