import Verif.Lemmas.StmtDefs
/-
Definitions of functions and classes.
-/
namespace Mcpyrate.PyText
open Py
open Unparse (Host Large Ctx Prints PrintsL PrintsO lit interleave dispatch fill argumentsText)

variable {P : Reading} {H : Host}

/-! ### Decorators -/

theorem decos_none {ts} (h : ∀ r, ts ≠ .sym .at :: r) : full .decos ts = some (.list [], ts) := by
  rw [full_at]; show pDecos full ts = _
  unfold pDecos
  split
  · exact absurd rfl (h _)
  · rfl

theorem decos_ok : ∀ {ds : List Val}, (∀ d ∈ ds, G P H d) → ∃ (D F : Nat → Str) (lts : List Tok),
    (Large fun n => ∀ c, Unparse.decorators (dispatch H n) c ds = .ok (D c.indent)) ∧
    (∀ i r, D i ++ '\n' :: (spaces i ++ r) = '\n' :: (spaces i ++ (F i ++ r))) ∧
    (∀ core ts d, Lines P core ts d → Starts core → Lines P (fun i => F i ++ core i) (lts ++ ts) d ∧ Starts fun i => F i ++ core i) ∧
    (∀ ts, (∀ r, ts ≠ .sym .at :: r) → full .decos (lts ++ ts) = some (.list ds, ts)) ∧
    (lts = [] ∧ ds = [] ∨ ∃ q, lts = .sym .at :: q)
  | [], _ => ⟨fun _ => [], fun _ => [], [], Large.all fun _ _ => rfl, fun _ _ => rfl, fun _ _ _ h h' => ⟨h, h'⟩,
      fun _ h => decos_none h, .inl ⟨rfl, rfl⟩⟩
  | d :: ds, hd => by
    obtain ⟨s, ts, g⟩ := hd d (by simp)
    obtain ⟨D, F, lts, h1, h2, h3, h4, -⟩ := decos_ok (ds := ds) fun x hx => hd x (by simp [hx])
    have hb : Body P ('@' :: s) (.sym .at :: ts) := by
      intro t k rest ht hf
      have h5 := g.body t k rest ht hf
      have h6 : Lx P ['@'] [.sym .at] (s ++ t ++ rest) := Lx.at (by rw [List.append_assoc]; exact g.next _ (by simp))
      exact h6.append h5
    refine ⟨fun i => '\n' :: (spaces i ++ '@' :: (s ++ D i)), fun i => '@' :: (s ++ '\n' :: (spaces i ++ F i)),
      .sym .at :: (ts ++ .newline :: lts), (g.prints.and h1).mono fun n ⟨h5, h6⟩ c => ?_, fun i r => ?_, fun core us e hl hs => ?_,
      fun us hu => ?_, .inr ⟨_, rfl⟩⟩
    · have := concat_cons (f := fun d => do return fill c (lit "@") ++ (← dispatch H n c d)) (v := d) (s := fill c (lit "@") ++ s)
        (by rw [h5 c]; rfl) (h6 c)
      refine this.trans ?_
      simp [fill, spaces, lit]
    · simp [h2]
    · obtain ⟨h5, h6⟩ := h3 core us e hl hs
      have := Lines.next (pre := []) (.inl rfl) hb.lines h5 h6
      refine ⟨?_, fun i => ⟨'@', _, rfl, by decide⟩⟩
      have e1 : (fun i => '@' :: (s ++ '\n' :: (spaces i ++ F i)) ++ core i) =
          fun i => '@' :: s ++ ([] ++ '\n' :: (spaces i ++ (F i ++ core i))) := by funext i; simp
      have e2 : .sym .at :: (ts ++ .newline :: lts) ++ us = .sym .at :: ts ++ .newline :: (List.replicate 0 .dedent ++ (lts ++ us)) := by simp
      rw [e1, e2]; exact this
    · rw [full_at, List.cons_append, List.append_assoc, List.cons_append]
      show seq (full .expr _) _ = _
      rw [g.expr (NoCont.none rfl), seq_some]
      show seq (full .decos _) _ = _
      rw [h4 us hu]; rfl

/-- A definition, with its decorators. -/
theorem def_s {v : Val} {ds vs : List Val} {h th b tb db} (hd : ∀ d ∈ ds, G P H d)
    (prints : Large fun n => ∀ c D, Unparse.decorators (dispatch H n) c ds = .ok D →
      dispatch H (n + 1) c v = .ok ('\n' :: D ++ fill c (h ++ b c.indent)))
    (hb : Body P h th) (beg : Beg h) (blk : Blk P H vs b tb db)
    (head : ∃ q, th = .sym .kDef :: q ∨ th = .sym .kAsync :: .sym .kDef :: q ∨ th = .sym .kClass :: q)
    (parses : ∀ r, definition full ds (th ++ (tb ++ closing db r)) = some (v, r)) : S P H v := by
  obtain ⟨D, F, lts, h1, h2, h3, h4, h5⟩ := decos_ok hd
  obtain ⟨h6, h7⟩ := h3 _ _ _ (blk.header hb) fun i => beg.app
  refine ⟨['\n'], _, _, _, (h1.and prints).succ fun n ⟨h8, h9⟩ c => ?_, .inr rfl, h6, h7, fun i => ?_, ?_, fun r _ => ?_⟩
  · rw [h9 c _ (h8 c)]
    show Except.ok ('\n' :: (D c.indent ++ '\n' :: (spaces c.indent ++ _))) = _
    rw [h2]; rfl
  · obtain ⟨w, c, e, hc⟩ := blk.finishes i
    exact ⟨F i ++ (h ++ w), c, by simp [e], hc⟩
  · rcases h5 with ⟨rfl, rfl⟩ | ⟨q, rfl⟩
    · obtain ⟨q, rfl | rfl | rfl⟩ := head <;> exact ⟨_, _, rfl, by decide, rfl⟩
    · exact ⟨_, _, rfl, by decide, rfl⟩
  · have h8 := parses r
    rw [List.append_assoc, List.append_assoc]
    rcases h5 with ⟨rfl, rfl⟩ | ⟨q, rfl⟩
    · rw [full_at, List.nil_append, ← h8]
      obtain ⟨q, rfl | rfl | rfl⟩ := head <;> rfl
    · have h9 := h4 (th ++ (tb ++ closing db r)) (by obtain ⟨q, rfl | rfl | rfl⟩ := head <;> intro r e <;> cases e)
      rw [List.cons_append] at h9 ⊢
      rw [full_at]
      show seq (full .decos _) _ = _
      rw [h9]; exact h8

/-! ### Functions -/

theorem Lx.arrow {t k rest} (h : Lx P (' ' :: t) k rest) : Lx P ('-' :: '>' :: ' ' :: t) (.sym .arrow :: k) rest :=
  Lx.op (c := '-') (w := ['>']) h rfl rfl rfl (by decide) (by decide) fun r _ => rfl

theorem s_function (hP : P.Lawful) {k : K} {x : String} {ps as ks : List Param} {v w t : Val} {b ds defs : List Val}
    (hk : k = .FunctionDef ∨ k = .AsyncFunctionDef) (hx : TokOK P (.name x))
    (hps : ∀ p ∈ ps, p.OK P H true) (has : ∀ p ∈ as, p.OK P H true) (hks : ∀ p ∈ ks, p.OK P H true)
    (hv : ArgsOK P H true v) (hw : StarOK P H true w) (hdf : defaultsOf ((ps ++ as).map Param.default) = some defs)
    (hn : b ≠ []) (hb : ∀ s ∈ b, S P H s) (hd : ∀ d ∈ ds, G P H d) (ht : OptG P H t) :
    S P H (functionOf k x (argumentsOf (ps.map Param.val) (as.map Param.val) v (ks.map Param.val) w defs) b ds t) := by
  have hd' : defaultsOf ((ps.map Param.val ++ as.map Param.val).map snd) = some defs := by
    rw [← hdf, ← List.map_append, List.map_map]; rfl
  obtain ⟨xs, ys, star, zs, double, s, ts, h1, h2, h3, h4, h5, h6, h7, -, -, h10⟩ :=
    params_ok hP (ann := true) (cl := .rpar) ⟨rfl, by decide, by decide⟩ hps has hks hv hw hdf
  have ha := Prints.arguments h1 h2 h3 h4 h5 hd'
  rw [h6] at ha
  obtain ⟨bt, tb, db, blk⟩ := blk_of hn hb
  obtain ⟨o, us, ho, htl, -, hp⟩ := opt_tail (x := " -> ") (sy := .arrow) ht ⟨_, .inl rfl⟩
    (fun h t k rest ht hf => Lx.sp (Lx.arrow (Lx.sp (h t k rest ht hf))))
  have hbody : Body P (x.toList ++ '(' :: (s ++ ')' :: (o.map (lit " -> " ++ ·)).getD [])) (.name x :: .sym .lpar :: (ts ++ .sym .rpar :: us)) := by
    intro t k rest hlx hf
    have e1 := Lx.rpar' (htl.lx t k rest hlx hf)
    have e2 := Lx.lpar' (h7 _ _ rest e1 (After.cons rfl))
    have e3 := Body.name hP hx _ _ rest e2 (After.cons rfl)
    simpa using e3
  generalize hA : argumentsOf (ps.map Param.val) (as.map Param.val) v (ks.map Param.val) w defs = A at h10
  replace ha : Prints H A s := hA ▸ ha
  have hparse : ∀ k r, functionRest full k ds (.name x :: .sym .lpar :: (ts ++ .sym .rpar :: us) ++ (tb ++ closing db r)) =
      some (functionOf k x A b ds t, r) := by
    intro k r
    have e : .name x :: .sym .lpar :: (ts ++ .sym .rpar :: us) ++ (tb ++ closing db r) =
      .name x :: .sym .lpar :: (ts ++ .sym .rpar :: (us ++ (tb ++ closing db r))) := by simp
    rw [e]
    show seq (full (.params true .rpar) _) _ = _
    rw [h10, seq_some]
    have : returns full (us ++ (tb ++ closing db r)) = some (t, tb ++ closing db r) := by
      rcases hp with ⟨rfl, rfl⟩ | ⟨us, rfl, hp⟩
      · obtain ⟨q, rfl⟩ := blk.head; rfl
      · exact hp _ (blk.noCont _)
    rw [this, seq_some, blk.parses]; rfl
  have hprint : ∀ (k : K) (word : String), (∀ n c fs, dispatch H (n + 1) c (mk k fs) = Unparse.functionDef (dispatch H n) c word k fs) →
      Large fun n => ∀ c D, Unparse.decorators (dispatch H n) c ds = .ok D → dispatch H (n + 1) c (functionOf k x A b ds t) =
        .ok ('\n' :: D ++ fill c (lit word ++ (x.toList ++ '(' :: (s ++ ')' :: (o.map (lit " -> " ++ ·)).getD [])) ++ bt c.indent)) := by
    intro k word hw
    refine ((ha.and blk.prints).and (optText ho " -> ")).mono fun n ⟨⟨e1, e2⟩, e3⟩ c D hD => ?_
    unfold functionOf
    rw [hw]
    have e3 := e3 c
    simp only [Unparse.pure_ok] at e3
    unparsing [Unparse.functionDef, hD, e1 c, e2 c, e3]
    simp [fill, lit]
  rcases hk with rfl | rfl
  · exact def_s hd (hprint .FunctionDef "def " fun _ _ _ => rfl) (hbody.word hP (k := .kDef) rfl) (lit_beg rfl) blk ⟨_, .inl rfl⟩
      fun r => hparse .FunctionDef r
  · have hw : Body P (lit "async def " ++ _) _ := (hbody.word hP (x := "def ") (k := .kDef) rfl).word hP (x := "async ") (k := .kAsync) rfl
    exact def_s hd (hprint .AsyncFunctionDef "async def " fun _ _ _ => rfl) hw (lit_beg rfl) blk ⟨_, .inr (.inl rfl)⟩
      fun r => hparse .AsyncFunctionDef r

/-! ### Classes -/

theorem s_class (hP : P.Lawful) {x : String} {as ks b ds : List Val} (hx : TokOK P (.name x)) (ha : ∀ a ∈ as, Elem P H a)
    (hk : ∀ k ∈ ks, Kw P H k) (hn : b ≠ []) (hb : ∀ s ∈ b, S P H s) (hd : ∀ d ∈ ds, G P H d) : S P H (classOf x as ks b ds) := by
  obtain ⟨bt, tb, db, blk⟩ := blk_of hn hb
  obtain ⟨ss, us, hps, hi⟩ := items_of fun x hx => (ha x hx).arg
  obtain ⟨ss', us', hps', hi'⟩ := items_of fun x hx => (hk x hx).item hP
  have hii := items_append hi hi'
  have hcp := callParts_ok (fun a h => (ha a h).notKeyword) (fun k h => (hk k h).isKeyword)
  have fin : ∀ l r, Val.elts l = as ++ ks → classBody full x ds l (tb ++ closing db r) = some (classOf x as ks b ds, r) := by
    intro l r e
    unfold classBody
    rw [e, hcp]
    show seq (full .block _) _ = _
    rw [blk.parses]; rfl
  have hpr : Large fun n => ∀ c, Unparse.callArgs (dispatch H n) c as ks = .ok (interleave (lit ", ") (ss ++ ss')) :=
    (hps.and hps').mono fun n ⟨h1, h2⟩ c => by
      unfold Unparse.callArgs
      rw [h1 c, h2 c]; rfl
  have hprint : Large fun n => ∀ c D, Unparse.decorators (dispatch H n) c ds = .ok D → dispatch H (n + 1) c (classOf x as ks b ds) =
        .ok ('\n' :: D ++ fill c (lit "class " ++ (x.toList ++ (if as.isEmpty && ks.isEmpty then [] else
          lit "(" ++ interleave (lit ", ") (ss ++ ss') ++ lit ")")) ++ bt c.indent)) := by
    refine (hpr.and blk.prints).mono fun n ⟨e1, e2⟩ c D hD => ?_
    show Unparse.classDef (dispatch H n) c _ = _
    unparsing [Unparse.classDef, hD, e1 c, e2 c]
    simp [fill, lit]
  have hemp : (as.isEmpty && ks.isEmpty) = (as ++ ks).isEmpty := by cases as <;> cases ks <;> rfl
  rw [hemp] at hprint
  generalize hxs : as ++ ks = xs at hii hcp hprint fin
  generalize hss : ss ++ ss' = xss at hii hprint
  generalize huu : us ++ us' = xus at hii
  cases hii with
  | nil =>
    refine def_s hd hprint (((Body.name hP hx).tail Tail.nil).word hP (k := .kClass) rfl) (lit_beg rfl) blk ⟨_, .inr (.inr rfl)⟩ fun r => ?_
    have h1 := fin (.list []) r rfl
    obtain ⟨q, rfl⟩ := blk.head
    exact h1
  | @cons v s' ts' vs zs zus hv hs =>
    have hbody : Body P (x.toList ++ (lit "(" ++ interleave (lit ", ") (s' :: zs) ++ lit ")")) (.name x :: .sym .lpar :: (ts' ++ zus ++ [.sym .rpar])) := by
      intro t k rest hlx hf
      have e2 := Lx.lpar' (hv.body.tail hs.tail _ _ rest (Lx.rpar' hlx) (After.cons rfl))
      have e3 := Body.name hP hx _ _ rest e2 (After.cons rfl)
      simpa [interleave_cons, lit] using e3
    refine def_s hd hprint (hbody.word hP (k := .kClass) rfl) (lit_beg rfl) blk ⟨_, .inr (.inr rfl)⟩ fun r => ?_
    have e : ts' ++ zus ++ [.sym .rpar] ++ (tb ++ closing db r) = ts' ++ zus ++ .sym .rpar :: (tb ++ closing db r) := by simp
    show seq (full (.items .arg .rpar) (ts' ++ zus ++ [.sym .rpar] ++ (tb ++ closing db r))) (classBody full x ds) = _
    rw [e, items_parse (by decide) hv hs, seq_some, fin _ _ rfl]

end Mcpyrate.PyText
