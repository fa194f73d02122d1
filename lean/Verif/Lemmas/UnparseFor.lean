import Verif.Lemmas.UnparseComp
/-
Comprehensions.
-/
namespace Mcpyrate.PyText
open Py
open Unparse (Host Prints PrintsL PrintsO PrintsCmp PrintsPairs lit interleave isIntConstant dispatch method attr attrL)

variable {P : Reading} {H : Host}

/-! ### Targets are written like other expressions -/

theorem toCtxL_length {ctx : K} : ∀ {ws ts : List Val}, toCtxL ctx ws = some ts → ts.length = ws.length
  | ws, ts, h => by
    unfold toCtxL at h
    split at h
    · cases h; rfl
    · split at h
      · rename_i h2; cases h; simp [toCtxL_length h2]
      · exact nomatch h

theorem tupleItems_eq {rec : Unparse.Rec} {c} {ts ws : List Val} {a b : Val} (hl : ts.length = ws.length)
    (h : Unparse.texts (rec c) ts = Unparse.texts (rec c) ws) :
    Unparse.tupleItems rec c [(.elts, .list ts), (.ctx, a)] = Unparse.tupleItems rec c [(.elts, .list ws), (.ctx, b)] := by
  unfold Unparse.tupleItems
  simp only [attrL, Unparse.attr_here, Unparse.elems, Unparse.ok_bind]
  match ts, ws, hl, h with
  | [], [], _, h => rfl
  | [t], [w], _, h =>
    dsimp only
    simp only [Unparse.texts, bind, Except.bind, pure, Except.pure] at h ⊢
    cases h1 : rec c t <;> cases h2 : rec c w <;> simp_all
  | t :: t' :: ts, w :: w' :: ws, _, h => simp only [h]

mutual
theorem dispatch_toCtx {ctx : K} : ∀ {w t : Val}, toCtx ctx w = some t → ∀ n c, dispatch H n c t = dispatch H n c w
  | w, t, h, 0, c => rfl
  | w, t, h, n + 1, c => by
    unfold toCtx at h
    split at h
    · cases h; rfl
    · cases h; rfl
    · cases h; rfl
    · split at h
      · rename_i hv
        split at h
        · exact nomatch h
        cases h
        have := dispatch_toCtx hv n c
        show Unparse.starred _ c _ = Unparse.starred _ c _
        unfold Unparse.starred
        simp only [Unparse.attr_here, Unparse.ok_bind, this]
      · exact nomatch h
    · split at h
      · rename_i hv
        cases h
        have := texts_toCtx hv n c
        show Unparse.tuple _ c _ = Unparse.tuple _ c _
        unfold Unparse.tuple
        rw [tupleItems_eq (toCtxL_length hv) this]
      · exact nomatch h
    · split at h
      · rename_i hv
        cases h
        have := texts_toCtx hv n c
        show (do Unparse.display (dispatch H n) c "[" "]" (← attrL .List _ .elts)) =
          (do Unparse.display (dispatch H n) c "[" "]" (← attrL .List _ .elts))
        simp only [attrL, Unparse.attr_here, Unparse.elems, Unparse.ok_bind, Unparse.display, this]
      · exact nomatch h
    · exact nomatch h
theorem texts_toCtx {ctx : K} : ∀ {ws ts : List Val}, toCtxL ctx ws = some ts → ∀ n c,
    Unparse.texts (dispatch H n c) ts = Unparse.texts (dispatch H n c) ws
  | ws, ts, h, n, c => by
    unfold toCtxL at h
    split at h
    · cases h; rfl
    · split at h
      · rename_i h1 h2
        cases h
        simp only [Unparse.texts, dispatch_toCtx h1 n c, texts_toCtx h2 n c]
      · exact nomatch h
end

theorem prints_toCtx {ctx : K} {w t : Val} {s} (h : toCtx ctx w = some t) (hp : Prints H w s) : Prints H t s :=
  hp.mono fun n hn c => by rw [dispatch_toCtx h]; exact hn c

/-! ### Clauses -/

theorem ifs_tail (hP : P.Lawful) : ∀ {ls : List Val}, (∀ l ∈ ls, G P H l) → ∃ ss ts, PrintsL H ls ss ∧
    Tail P (ss.map (lit " if " ++ ·)).flatten ts ∧
      ∀ rest, NoCont 0 rest → full .ifs (ts ++ rest) = some (.list ls, rest) ∧ NoCont 1 (ts ++ rest)
  | [], _ => ⟨[], [], PrintsL.nil, Tail.nil, fun rest hr => ⟨by
      rw [full_at]; show pIfs full rest = _
      unfold pIfs
      split
      · exact absurd (hr.at (j := 0) rfl) (by decide)
      · rfl, hr.mono (by decide)⟩⟩
  | l :: ls, h => by
    obtain ⟨s, ts, g⟩ := h l (by simp)
    obtain ⟨ss, us, hp, ht, hr⟩ := ifs_tail hP (ls := ls) fun x hx => h x (by simp [hx])
    refine ⟨_, .sym .kIf :: (ts ++ us), PrintsL.cons g.prints hp, ?_, fun rest hn => ⟨?_, NoCont.lt (j := 0) rfl (by decide)⟩⟩
    · have hb : Body P (' ' :: 'i' :: 'f' :: ' ' :: (s ++ (ss.map (lit " if " ++ ·)).flatten)) (.sym .kIf :: (ts ++ us)) :=
        fun t k rest hlt hf => Lx.sp (Lx.kIf hP (Lx.sp (g.body.tail ht _ _ _ hlt hf)))
      exact Tail.cons hb rfl
    · obtain ⟨h1, h2⟩ := hr rest hn
      rw [List.cons_append, List.append_assoc, full_at]
      show seq (full .disj _) _ = _
      rw [g.disj h2, seq_some, h1]; rfl

/-- The target of a `for` clause. -/
def Target (P : Reading) (H : Host) (t : Val) : Prop := ∃ w, toCtx .Store w = some t ∧ Elem P H w

theorem full_target {ts} (h : ∀ r, ts ≠ .sym .star :: r) : full .target ts = seq (full .primary ts) (asTarget .Store) := by
  rw [full_at]; show pTarget full ts = _
  unfold pTarget
  split
  · exact absurd rfl (h _)
  · rfl

theorem Target.first {t} (h : Target P H t) : ∃ s ts, Prints H t s ∧ Body P s ts ∧
    ∀ rest, NoCont 14 rest → full .target (ts ++ rest) = some (t, rest) := by
  obtain ⟨w, hw, ⟨s, ts, g⟩ | ⟨w, rfl, s, ts, g⟩⟩ := h
  · refine ⟨s, ts, prints_toCtx hw g.prints, g.body, fun rest h => ?_⟩
    rw [full_target (g.neSym rfl _), g.primary h, seq_some, asTarget, hw]; rfl
  · refine ⟨_, .sym .star :: ts, prints_toCtx hw (prints_cast (Prints.starred g.prints) (s' := '*' :: s) (by simp)), g.starBody, fun rest h => ?_⟩
    rw [full_at, List.cons_append]; show seq (full .primary _) _ = _
    rw [g.primary h, seq_some, asTarget, hw]; rfl

/-- A `for` clause. -/
def IsClause (P : Reading) (H : Host) (g : Val) : Prop :=
  ∃ k t i ls, g = clause k t i ls ∧ (k = 0 ∨ k = 1) ∧ Target P H t ∧ G P H i ∧ ∀ l ∈ ls, G P H l

/-- The tokens begin with a `for` clause. -/
def ForStart (ts : List Tok) : Prop := (∃ r, ts = .sym .kFor :: r) ∨ ∃ r, ts = .sym .kAsync :: r

theorem comps_stop {s : Sym} {rest} (h : contLevel (.sym s) = none) (h1 : s ≠ .kFor) (h2 : s ≠ .kAsync) :
    full .comps (.sym s :: rest) = some (.list [], .sym s :: rest) := by
  rw [full_at]; show pComps full _ = _
  unfold pComps
  split
  · rename_i e; cases e; exact absurd rfl h2
  · rename_i e; cases e; exact absurd rfl h1
  · rfl

theorem comps_tail (hP : P.Lawful) : ∀ {gs : List Val}, (∀ g ∈ gs, IsClause P H g) → ∃ ss ts, PrintsL H gs ss ∧ Tail P ss.flatten ts ∧
    (gs ≠ [] → ForStart ts) ∧
    ∀ s rest, contLevel (.sym s) = none → s ≠ .kFor → s ≠ .kAsync →
      full .comps (ts ++ .sym s :: rest) = some (.list gs, .sym s :: rest) ∧ NoCont 0 (ts ++ .sym s :: rest)
  | [], _ => ⟨[], [], PrintsL.nil, Tail.nil, fun h => absurd rfl h, fun s rest h h1 h2 => ⟨comps_stop h h1 h2, NoCont.none h⟩⟩
  | g :: gs, h => by
    obtain ⟨k, t, i, ls, rfl, hk, htar, ⟨y, yt, gi⟩, hls⟩ := h g (by simp)
    obtain ⟨x, xt, hpx, hbx, hfx⟩ := htar.first
    obtain ⟨zs, zt, hpz, htz, hfz⟩ := ifs_tail hP hls
    obtain ⟨ss, us, hp, ht, -, hr⟩ := comps_tail hP (gs := gs) fun x hx => h x (by simp [hx])
    have hpr := Prints.comprehension hpx gi.prints hpz hk
    have hbody : Body P (' ' :: 'f' :: 'o' :: 'r' :: ' ' :: (x ++ ' ' :: 'i' :: 'n' :: ' ' :: (y ++ (zs.map (lit " if " ++ ·)).flatten ++ ss.flatten)))
        (.sym .kFor :: (xt ++ .sym .kIn :: (yt ++ zt ++ us))) := by
      intro t k rest hlt hf
      have h1 := (gi.body.tail htz).tail ht _ _ _ hlt hf
      have h2 := hbx _ _ _ (Lx.sp (Lx.kIn hP (Lx.sp h1))) (After.cons rfl)
      have h3 := Lx.sp (Lx.kFor hP (Lx.sp h2))
      simpa using h3
    have hfull : ∀ s rest, contLevel (.sym s) = none → s ≠ .kFor → s ≠ .kAsync →
        seq (full .target (xt ++ .sym .kIn :: (yt ++ zt ++ us ++ .sym s :: rest))) (compIn full k) =
          some (.list (clause k t i ls :: gs), .sym s :: rest) := by
      intro s rest h1 h2 h3
      obtain ⟨h4, h5⟩ := hr s rest h1 h2 h3
      obtain ⟨h6, h7⟩ := hfz _ h5
      rw [hfx _ (NoCont.lt (j := 4) rfl (by decide)), seq_some]
      show seq (full .disj _) _ = _
      rw [List.append_assoc, List.append_assoc, gi.disj h7, seq_some, h6, seq_some, h4]; rfl
    rcases hk with rfl | rfl
    · refine ⟨_, .sym .kFor :: (xt ++ .sym .kIn :: (yt ++ zt ++ us)), PrintsL.cons hpr hp, ?_, fun _ => .inl ⟨_, rfl⟩,
        fun s rest h1 h2 h3 => ⟨?_, NoCont.none rfl⟩⟩
      · have := Tail.cons hbody rfl
        simpa [lit] using this
      · have := hfull s rest h1 h2 h3
        have e : .sym .kFor :: (xt ++ .sym .kIn :: (yt ++ zt ++ us)) ++ .sym s :: rest =
          .sym .kFor :: (xt ++ .sym .kIn :: (yt ++ zt ++ us ++ .sym s :: rest)) := by simp
        rw [e, full_at]; exact this
    · refine ⟨_, .sym .kAsync :: .sym .kFor :: (xt ++ .sym .kIn :: (yt ++ zt ++ us)), PrintsL.cons hpr hp, ?_, fun _ => .inr ⟨_, rfl⟩,
        fun s rest h1 h2 h3 => ⟨?_, NoCont.none rfl⟩⟩
      · have hb : Body P (' ' :: 'a' :: 's' :: 'y' :: 'n' :: 'c' :: ' ' :: 'f' :: 'o' :: 'r' :: ' ' :: (x ++ ' ' :: 'i' :: 'n' :: ' ' :: (y ++ (zs.map (lit " if " ++ ·)).flatten ++ ss.flatten)))
            (.sym .kAsync :: .sym .kFor :: (xt ++ .sym .kIn :: (yt ++ zt ++ us))) :=
          fun t k rest hlt hf => Lx.sp (Lx.kAsync hP (hbody t k rest hlt hf))
        have := Tail.cons hb rfl
        simpa [lit] using this
      · have := hfull s rest h1 h2 h3
        have e : .sym .kAsync :: .sym .kFor :: (xt ++ .sym .kIn :: (yt ++ zt ++ us)) ++ .sym s :: rest =
          .sym .kAsync :: .sym .kFor :: (xt ++ .sym .kIn :: (yt ++ zt ++ us ++ .sym s :: rest)) := by simp
        rw [e, full_at]; exact this

/-! ### Comprehensions -/

theorem compRest_ok {s : Sym} {e : Val → Val} {ts rest gs} (h : full .comps (ts ++ .sym s :: rest) = some (gs, .sym s :: rest)) :
    compRest full s e (ts ++ .sym s :: rest) = some (e gs, rest) := by
  unfold compRest
  rw [h, seq_some, close, if_pos rfl]

theorem g_generatorExp (hP : P.Lawful) {a : Val} {gs : List Val} (ha : G P H a) (hgs : ∀ g ∈ gs, IsClause P H g) (hne : gs ≠ []) :
    G P H (generator .GeneratorExp a (.list gs)) := by
  obtain ⟨x, xt, g⟩ := ha
  obtain ⟨ss, us, hp, ht, hfs, hr⟩ := comps_tail hP hgs
  refine good_paren (s := x ++ ss.flatten) (ts := xt ++ us)
    (prints_cast (Prints.comp (fun _ _ _ _ _ => rfl) g.prints hp) (by simp [lit])) (fun rest => ?_)
    ⟨.GeneratorExp, _, rfl, rfl, by decide, by decide⟩ fun rest => ?_
  · exact g.body.tail ht _ _ rest (Lx.rpar' Lx.nil) (After.cons rfl)
  · obtain ⟨h1, h2⟩ := hr .rpar rest rfl (by decide) (by decide)
    have h3 := compRest_ok (e := generator .GeneratorExp a) h1
    rw [List.append_assoc]
    rcases hfs hne with ⟨r, rfl⟩ | ⟨r, rfl⟩
    all_goals
      rw [paren_first g.elemStart (g.elem h2) (by simp)]
      show (if isStarred a then none else compRest full .rpar (generator .GeneratorExp a) _) = _
      rw [g.notStarred, if_neg (by simp)]
      exact h3

theorem g_listComp (hP : P.Lawful) {a : Val} {gs : List Val} (ha : G P H a) (hgs : ∀ g ∈ gs, IsClause P H g) (hne : gs ≠ []) :
    G P H (generator .ListComp a (.list gs)) := by
  obtain ⟨x, xt, g⟩ := ha
  obtain ⟨ss, us, hp, ht, hfs, hr⟩ := comps_tail hP hgs
  refine good_brack (s := x ++ ss.flatten) (ts := xt ++ us)
    (prints_cast (Prints.comp (fun _ _ _ _ _ => rfl) g.prints hp) (by simp [lit])) (fun rest => ?_)
    ⟨.ListComp, _, rfl, rfl, by decide, by decide⟩ fun rest => ?_
  · exact g.body.tail ht _ _ rest (Lx.rbrack' Lx.nil) (After.cons rfl)
  · obtain ⟨h1, h2⟩ := hr .rbrack rest rfl (by decide) (by decide)
    have h3 := compRest_ok (e := generator .ListComp a) h1
    rw [List.append_assoc]
    rcases hfs hne with ⟨r, rfl⟩ | ⟨r, rfl⟩
    all_goals
      rw [brack_first g.elemStart (g.elem h2)]
      show (if isStarred a then none else compRest full .rbrack (generator .ListComp a) _) = _
      rw [g.notStarred, if_neg (by simp)]
      exact h3

theorem g_setComp (hP : P.Lawful) {a : Val} {gs : List Val} (ha : G P H a) (hgs : ∀ g ∈ gs, IsClause P H g) (hne : gs ≠ []) :
    G P H (generator .SetComp a (.list gs)) := by
  obtain ⟨x, xt, g⟩ := ha
  obtain ⟨ss, us, hp, ht, hfs, hr⟩ := comps_tail hP hgs
  refine good_brace (s := x ++ ss.flatten) (ts := xt ++ us)
    (prints_cast (Prints.comp (fun _ _ _ _ _ => rfl) g.prints hp) (by simp [lit])) (fun rest => ?_)
    ⟨.SetComp, _, rfl, rfl, by decide, by decide⟩ fun rest => ?_
  · exact g.body.tail ht _ _ rest (Lx.rbrace' Lx.nil) (After.cons rfl)
  · obtain ⟨h1, h2⟩ := hr .rbrace rest rfl (by decide) (by decide)
    have h3 := compRest_ok (e := generator .SetComp a) h1
    rw [List.append_assoc]
    rcases hfs hne with ⟨r, rfl⟩ | ⟨r, rfl⟩
    all_goals
      rw [brace_first g.elemStart (g.elem h2)]
      show (if isStarred a then none else compRest full .rbrace (generator .SetComp a) _) = _
      rw [g.notStarred, if_neg (by simp)]
      exact h3

theorem g_dictComp (hP : P.Lawful) {a b : Val} {gs : List Val} (ha : G P H a) (hb : G P H b) (hgs : ∀ g ∈ gs, IsClause P H g) (hne : gs ≠ []) :
    G P H (dictComp a b (.list gs)) := by
  obtain ⟨x, xt, g⟩ := ha
  obtain ⟨y, yt, g'⟩ := hb
  obtain ⟨ss, us, hp, ht, hfs, hr⟩ := comps_tail hP hgs
  refine good_brace (s := x ++ ':' :: ' ' :: y ++ ss.flatten) (ts := xt ++ .sym .colon :: yt ++ us)
    (prints_cast (Prints.dictComp g.prints g'.prints hp) (by simp [lit])) (fun rest => ?_)
    ⟨.DictComp, _, rfl, rfl, by decide, by decide⟩ fun rest => ?_
  · exact (g.colonBody g').tail ht _ _ rest (Lx.rbrace' Lx.nil) (After.cons rfl)
  · obtain ⟨h1, h2⟩ := hr .rbrace rest rfl (by decide) (by decide)
    have h3 := compRest_ok (e := dictComp a b) h1
    have e : xt ++ .sym .colon :: yt ++ us ++ .sym .rbrace :: rest = xt ++ .sym .colon :: (yt ++ (us ++ .sym .rbrace :: rest)) := by simp
    rw [e, brace_first g.elemStart (g.elem (NoCont.none rfl))]
    show (if isStarred a then none else seq (full .expr _) (dictRest full a)) = _
    rw [g.notStarred, if_neg (by simp), g'.expr h2, seq_some]
    rcases hfs hne with ⟨r, rfl⟩ | ⟨r, rfl⟩
    all_goals exact h3

end Mcpyrate.PyText
