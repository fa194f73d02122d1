import Verif.Lemmas.UnparseFor
/-
Parameters of functions, and `lambda`.
-/
namespace Mcpyrate.PyText
open Py
open Unparse (Host Prints PrintsL PrintsO PrintsPlain PrintsStar lit interleave annText argumentsText starTexts)

variable {P : Reading} {H : Host}

/-- What may follow an expression, except for a dot. -/
def After' (t : Str) : Prop := Follow t ∧ t.head? ≠ some '.'

theorem After.weaken {t} (h : After t) : After' t := ⟨h.follow, h.noDot⟩

/-- A parameter as the parser returns it. -/
def plain (x : String) (a d : Val) : Val := .list [argOf x a, d]

theorem def_part {d : Val} (h : OptG P H d) : ∃ o ts, PrintsO H d o ∧
    (∀ t k rest, Lx P t k rest → After (t ++ rest) → Lx P ((o.map ('=' :: ·)).getD [] ++ t) (ts ++ k) rest ∧
      After' ((o.map ('=' :: ·)).getD [] ++ t ++ rest)) ∧
    ∀ sy r, contLevel (.sym sy) = none → sy ≠ .eq → defaultValue full (ts ++ .sym sy :: r) = some (d, .sym sy :: r) ∧
      ∃ sy' r', (sy' = sy ∨ sy' = .eq) ∧ ts ++ .sym sy :: r = .sym sy' :: r' := by
  rcases h with rfl | ⟨s, ts, g⟩
  · refine ⟨none, [], rfl, fun t k rest ht hf => ⟨ht, hf.weaken⟩, fun sy r h h' => ⟨?_, sy, r, .inl rfl, rfl⟩⟩
    rw [List.nil_append]
    unfold defaultValue
    split
    · rename_i e; cases e; exact absurd rfl h'
    · rfl
  · refine ⟨some s, .sym .eq :: ts, g.printsO, fun t k rest ht hf => ⟨?_, Follow.cons rfl, by simp⟩,
      fun sy r h h' => ⟨?_, _, _, .inr rfl, rfl⟩⟩
    · refine Lx.eq' (g.body _ _ _ ht hf) ?_
      show (s ++ t ++ rest).head? ≠ _; rw [List.append_assoc]; exact g.next _ (by simp)
    · exact g.expr (NoCont.none h)

/-- An annotation, which `lambda` does not have. -/
def OptAnn (P : Reading) (H : Host) (annotated : Bool) (a : Val) : Prop := a = .none ∨ annotated = true ∧ G P H a

theorem ann_part {ann : Bool} {a : Val} (h : OptAnn P H ann a) : ∃ o ts, PrintsO H a o ∧
    (∀ t k rest, Lx P t k rest → After' (t ++ rest) → Lx P (annText o ++ t) (ts ++ k) rest ∧ After' (annText o ++ t ++ rest)) ∧
    ∀ sy r, contLevel (.sym sy) = none → (ann = true → sy ≠ .colon) →
      annotation full ann .expr (ts ++ .sym sy :: r) = some (a, .sym sy :: r) ∧
      annotation full ann .elem (ts ++ .sym sy :: r) = some (a, .sym sy :: r) := by
  rcases h with rfl | ⟨rfl, s, ts, g⟩
  · refine ⟨none, [], rfl, fun t k rest ht hf => ⟨ht, hf⟩, fun sy r h h' => ?_⟩
    have : ∀ nt, annotation full ann nt ([] ++ .sym sy :: r) = some (.none, .sym sy :: r) := by
      intro nt
      unfold annotation
      split
      · rename_i e1 e2; cases e2; exact absurd rfl (h' rfl)
      · rfl
    exact ⟨this _, this _⟩
  · refine ⟨some s, .sym .colon :: ts, g.printsO, fun t k rest ht hf => ⟨?_, Follow.cons rfl, by simp [annText, lit]⟩,
      fun sy r h h' => ⟨g.expr (NoCont.none h), g.elem (NoCont.none h)⟩⟩
    exact Lx.colon' (t := ' ' :: (s ++ t)) (Lx.sp (g.lx ht hf.1 hf.2)) (by simp)

/-- The symbol after the parameters. -/
structure ParamsEnd (ann : Bool) (cl : Sym) : Prop where
  cont : contLevel (.sym cl) = none
  colon : ann = true → cl ≠ .colon
  ne : cl ≠ .eq ∧ cl ≠ .comma ∧ cl ≠ .slash ∧ cl ≠ .star ∧ cl ≠ .starStar

theorem ParamsEnd.at {ann cl} (h : ParamsEnd ann cl) {sy} (hs : sy = .comma ∨ sy = cl) :
    contLevel (.sym sy) = none ∧ sy ≠ .eq ∧ (ann = true → sy ≠ .colon) := by
  rcases hs with rfl | rfl
  · exact ⟨rfl, by decide, fun _ => by decide⟩
  · exact ⟨h.cont, h.ne.1, h.colon⟩

def Param.val (p : Param) : Val := plain p.name p.ann p.default

def Param.OK (P : Reading) (H : Host) (ann : Bool) (p : Param) : Prop :=
  TokOK P (.name p.name) ∧ OptAnn P H ann p.ann ∧ OptG P H p.default

theorem plain_item (hP : P.Lawful) {ann cl} (hcl : ParamsEnd ann cl) {p : Param} (h : p.OK P H ann) :
    ∃ o o' ts, PrintsO H p.ann o ∧ PrintsO H p.default o' ∧
      Piece P (.param ann) cl p.val (p.name.toList ++ annText o ++ (o'.map ('=' :: ·)).getD []) ts := by
  obtain ⟨x, a, d⟩ := p
  obtain ⟨hx, ha, hd⟩ := h
  dsimp only at hx ha hd
  obtain ⟨o, ts, hp, hl, hf⟩ := ann_part ha
  obtain ⟨o', ts', hp', hl', hf'⟩ := def_part hd
  refine ⟨o, o', .name x :: (ts ++ ts'), hp, hp', ?_, ?_, _, _, rfl, by simp⟩
  · intro t k rest ht ha
    obtain ⟨h1, h2⟩ := hl' t k rest ht ha
    obtain ⟨h3, h4⟩ := hl _ _ _ h1 h2
    have := Lx.nameThen hP hx h3 h4.1
    simpa using this
  · intro sy r hs
    obtain ⟨h1, h2, h3⟩ := hcl.at hs
    obtain ⟨h4, sy', r', h5, h6⟩ := hf' sy r h1 h2
    have h7 := (hf sy' r' (by rcases h5 with rfl | rfl <;> first | exact h1 | rfl)
      (by rcases h5 with rfl | rfl <;> first | exact h3 | exact fun _ => by decide)).1
    rw [full_at, List.cons_append, List.append_assoc]
    show seq (annotation full ann .expr (ts ++ (ts' ++ .sym sy :: r))) _ = _
    rw [h6, h7, seq_some, ← h6, h4]; rfl

theorem plain_items (hP : P.Lawful) {ann cl} (hcl : ParamsEnd ann cl) : ∀ {ps : List Param}, (∀ p ∈ ps, p.OK P H ann) →
    ∃ ss us, PrintsPlain H (ps.map Param.val) ss ∧ Items P (.param ann) cl (ps.map Param.val) ss us
  | [], _ => ⟨[], [], .nil, .nil⟩
  | p :: ps, h => by
    obtain ⟨o, o', ts, h1, h2, h3⟩ := plain_item hP hcl (h p (by simp))
    obtain ⟨ss, us, h4, h5⟩ := plain_items hP hcl (ps := ps) fun x hx => h x (by simp [hx])
    exact ⟨_, _, .cons h1 h2 h4, .cons h3 h5⟩

theorem After.notSlash {t} (h : After t) : t.head? ≠ some '/' ∧ t.head? ≠ some '*' := by
  cases t with
  | nil => simp
  | cons c r =>
    have := h c r rfl
    constructor <;> (intro e; cases e; exact absurd this (by decide))

theorem slash_item {ann cl} (hcl : ParamsEnd ann cl) : Piece P (.param ann) cl (.str "/") (lit "/") [.sym .slash] :=
  ⟨fun _ _ _ ht hf => Lx.slash' ht hf.noEq hf.notSlash.1, fun sy r _ => by rw [full_at]; rfl,
    _, _, rfl, by have := hcl.ne; simp [Ne.symm this.2.2.1]⟩

theorem star_item {ann cl} (hcl : ParamsEnd ann cl) : Piece P (.param ann) cl (.str "*") (lit "*") [.sym .star] :=
  ⟨fun _ _ _ ht hf => Lx.star' ht hf.noEq hf.notSlash.2, fun sy r _ => by rw [full_at]; rfl,
    _, _, rfl, by have := hcl.ne; simp [Ne.symm this.2.2.2.1]⟩

/-- `*args` or `**kwargs`: its name and annotation. -/
def StarOK (P : Reading) (H : Host) (ann : Bool) (v : Val) : Prop :=
  v = .none ∨ ∃ x a, v = argOf x a ∧ TokOK P (.name x) ∧ OptAnn P H ann a

theorem name_starts (hP : P.Lawful) {x : String} (hx : TokOK P (.name x)) (rest : Str) :
    (x.toList ++ rest).head? ≠ some '=' ∧ (x.toList ++ rest).head? ≠ some '*' := by
  have g := good_name (H := ⟨fun _ => true⟩) hP hx
  exact ⟨g.next _ (by simp), g.next _ (by simp)⟩

theorem starArg_item (hP : P.Lawful) {ann cl} (hcl : ParamsEnd ann cl) {x : String} {a : Val} (hx : TokOK P (.name x))
    (ha : OptAnn P H ann a) : ∃ o, PrintsO H a o ∧
      (∃ ts, Piece P (.param ann) cl (.list [.str "*", argOf x a]) (lit "*" ++ (x.toList ++ annText o)) ts) ∧
      (∃ ts, Piece P (.param ann) cl (.list [.str "**", argOf x a]) (lit "**" ++ (x.toList ++ annText o)) ts) := by
  obtain ⟨o, ts, hp, hl, hf⟩ := ann_part ha
  have hb : Body P (x.toList ++ annText o) (.name x :: ts) := fun t k rest ht ha => by
    obtain ⟨h3, h4⟩ := hl _ _ _ ht ha.weaken
    have := Lx.nameThen hP hx h3 h4.1
    simpa using this
  refine ⟨o, hp, ⟨.sym .star :: .name x :: ts, ?_, ?_, _, _, rfl, ?_⟩, ⟨.sym .starStar :: .name x :: ts, ?_, ?_, _, _, rfl, ?_⟩⟩
  · intro t k rest ht ha
    have h := name_starts hP hx (annText o ++ t ++ rest)
    refine Lx.star' (hb _ _ _ ht ha) ?_ ?_
    · simpa using h.1
    · simpa using h.2
  · intro sy r hs
    obtain ⟨h1, h2, h3⟩ := hcl.at hs
    rw [full_at]
    show seq (annotation full ann .elem (ts ++ .sym sy :: r)) _ = _
    rw [(hf sy r h1 h3).2]; rfl
  · have := hcl.ne; simp [Ne.symm this.2.2.2.1]
  · intro t k rest ht ha
    have h := name_starts hP hx (annText o ++ t ++ rest)
    refine Lx.starStar' (hb _ _ _ ht ha) ?_
    simpa using h.1
  · intro sy r hs
    obtain ⟨h1, h2, h3⟩ := hcl.at hs
    rw [full_at]
    show seq (annotation full ann .expr (ts ++ .sym sy :: r)) _ = _
    rw [(hf sy r h1 h3).1]; rfl
  · have := hcl.ne; simp [Ne.symm this.2.2.2.2]

/-- `*args`: its name and annotation, which may be starred. -/
def ArgsOK (P : Reading) (H : Host) (ann : Bool) (v : Val) : Prop :=
  v = .none ∨ ∃ x a, v = argOf x a ∧ TokOK P (.name x) ∧ (a = .none ∨ ann = true ∧ Elem P H a)

theorem StarOK.args {ann v} (h : StarOK P H ann v) : ArgsOK P H ann v :=
  h.imp id fun ⟨x, a, e, hx, ha⟩ => ⟨x, a, e, hx, ha.imp id fun ⟨h, g⟩ => ⟨h, .inl g⟩⟩

theorem args_item (hP : P.Lawful) {ann cl} (hcl : ParamsEnd ann cl) {x : String} {a : Val} (hx : TokOK P (.name x))
    (ha : a = .none ∨ ann = true ∧ Elem P H a) : ∃ o, PrintsO H a o ∧
      ∃ ts, Piece P (.param ann) cl (.list [.str "*", argOf x a]) (lit "*" ++ (x.toList ++ annText o)) ts := by
  rcases ha with rfl | ⟨rfl, g | ⟨w, rfl, hw⟩⟩
  · obtain ⟨o, h1, h2, -⟩ := starArg_item (H := H) hP hcl hx (.inl rfl)
    exact ⟨o, h1, h2⟩
  · obtain ⟨o, h1, h2, -⟩ := starArg_item (H := H) hP hcl hx (.inr ⟨rfl, g⟩)
    exact ⟨o, h1, h2⟩
  · obtain ⟨s, ts, h1, -, h3, h4⟩ := Elem.first (.inr ⟨w, rfl, hw⟩ : Elem P H (starred w))
    refine ⟨some s, ⟨h1, rfl⟩, .sym .star :: .name x :: .sym .colon :: ts, ?_, ?_, _, _, rfl, ?_⟩
    · intro t k rest ht ha
      have e1 := Lx.sp (h3 t k rest ht ha)
      have e2 := Lx.colon' e1 (by simp)
      have e3 := Lx.nameThen hP hx e2 (Follow.cons rfl)
      have h := name_starts hP hx (annText (some s) ++ t ++ rest)
      have e4 := Lx.star' e3 (by simpa [annText, lit] using h.1) (by simpa [annText, lit] using h.2)
      simpa [annText, lit] using e4
    · intro sy r hs
      obtain ⟨h5, h6, h7⟩ := hcl.at hs
      rw [full_at]
      show seq (full .elem (ts ++ .sym sy :: r)) _ = _
      rw [h4 _ (NoCont.none h5)]; rfl
    · have := hcl.ne; simp [Ne.symm this.2.2.2.1]

/-- What the parser returns for `*args`. -/
def starVals (v : Val) (ks : List Val) : List Val :=
  match v with
  | .node .. => [.list [.str "*", v]]
  | _ => if ks.isEmpty then [] else [.str "*"]

def doubleVals (v : Val) : List Val :=
  match v with
  | .node .. => [.list [.str "**", v]]
  | _ => []

theorem star_items (hP : P.Lawful) {ann cl} (hcl : ParamsEnd ann cl) {v : Val} (h : ArgsOK P H ann v) {ks : List Val} {zs : List Str}
    (hz : zs.length = ks.length) : ∃ o us, PrintsStar H v o ∧ Items P (.param ann) cl (starVals v ks) (starTexts o zs) us := by
  rcases h with rfl | ⟨x, a, rfl, hx, ha⟩
  · refine ⟨none, ?_⟩
    cases ks <;> cases zs <;> simp at hz
    · exact ⟨[], .none, .nil⟩
    · exact ⟨_, .none, .cons (star_item hcl) .nil⟩
  · obtain ⟨o, hp, ts, hi⟩ := args_item hP hcl hx ha
    exact ⟨_, _, .some hp, .cons hi .nil⟩

theorem double_items (hP : P.Lawful) {ann cl} (hcl : ParamsEnd ann cl) {v : Val} (h : StarOK P H ann v) :
    ∃ o us, PrintsStar H v o ∧ Items P (.param ann) cl (doubleVals v) ((o.map (lit "**" ++ ·)).toList) us := by
  rcases h with rfl | ⟨x, a, rfl, hx, ha⟩
  · exact ⟨none, [], .none, .nil⟩
  · obtain ⟨o, hp, -, ts, hi⟩ := starArg_item hP hcl hx ha
    exact ⟨_, _, .some hp, .cons hi .nil⟩

/-! ### The tree for the parameters -/

/-- Does not begin with an ordinary parameter. -/
def NotPlain (r : List Val) : Prop := r = [] ∨ (∃ s r', r = .str s :: r') ∨ ∃ s a r', r = .list [.str s, a] :: r'

theorem takePlain_stop {r : List Val} (h : NotPlain r) : takePlain r = ([], r) := by
  rcases h with rfl | ⟨s, r', rfl⟩ | ⟨s, a, r', rfl⟩ <;> rfl

theorem takePlain_app {ps : List Param} {r : List Val} (h : NotPlain r) :
    takePlain (ps.map Param.val ++ r) = (ps.map Param.val, r) := by
  induction ps with
  | nil => exact takePlain_stop h
  | cons p ps ih =>
    rw [List.map_cons, List.cons_append]
    show (_ :: (takePlain _).1, (takePlain _).2) = _
    rw [ih]; rfl

theorem doubleVals_notPlain {v : Val} : NotPlain (doubleVals v) := by
  unfold doubleVals
  split
  · exact .inr (.inr ⟨_, _, _, rfl⟩)
  · exact .inl rfl

/-- What the parser returns for the parameters. -/
def paramVals (ps as : List Val) (v : Val) (ks : List Val) (w : Val) : List Val :=
  ps ++ (if ps.isEmpty then [] else [.str "/"]) ++ as ++ starVals v ks ++ ks ++ doubleVals w

def argumentsOf (ps as : List Val) (v : Val) (ks : List Val) (w : Val) (ds : List Val) : Val :=
  mk .arguments [(.posonlyargs, .list (ps.map fst)), (.args, .list (as.map fst)), (.vararg, v),
    (.kwonlyargs, .list (ks.map fst)), (.kw_defaults, .list (ks.map snd)), (.kwarg, w), (.defaults, .list ds)]

/-- A node or `None`. -/
def NodeOrNone (v : Val) : Prop := v = .none ∨ ∃ c l fs, v = .node c l fs

theorem takeDouble_ok {w : Val} (h : NodeOrNone w) : takeDouble (doubleVals w) = some w := by
  rcases h with rfl | ⟨c, l, fs, rfl⟩ <;> rfl

theorem takeStar_ok {v w : Val} {ks : List Param} (hv : NodeOrNone v) :
    takeStar (starVals v (ks.map Param.val) ++ ks.map Param.val ++ doubleVals w) = some (v, ks.map Param.val, doubleVals w) := by
  have hp := takePlain_app (ps := ks) (doubleVals_notPlain (v := w))
  rcases hv with rfl | ⟨c, l, fs, rfl⟩
  · cases ks with
    | nil =>
      show takeStar (doubleVals w) = _
      unfold doubleVals
      split <;> rfl
    | cons k ks =>
      show (if (takePlain ((k :: ks).map Param.val ++ doubleVals w)).1.isEmpty then none
        else some (Val.none, takePlain ((k :: ks).map Param.val ++ doubleVals w))) = _
      rw [hp]; rfl
  · show some (_, takePlain (ks.map Param.val ++ doubleVals w)) = _
    rw [hp]

theorem star_notPlain {v w : Val} {ks : List Param} (hv : NodeOrNone v) :
    NotPlain (starVals v (ks.map Param.val) ++ ks.map Param.val ++ doubleVals w) := by
  rcases hv with rfl | ⟨c, l, fs, rfl⟩
  · cases ks with
    | nil => exact doubleVals_notPlain
    | cons k ks => exact .inr (.inl ⟨_, _, rfl⟩)
  · exact .inr (.inr ⟨_, _, _, rfl⟩)

theorem assemble_ok {ps as ks : List Param} {v w : Val} {ds : List Val} (hv : NodeOrNone v) (hw : NodeOrNone w)
    (hd : defaultsOf ((ps ++ as).map Param.default) = some ds) :
    assemble (paramVals (ps.map Param.val) (as.map Param.val) v (ks.map Param.val) w) =
      some (argumentsOf (ps.map Param.val) (as.map Param.val) v (ks.map Param.val) w ds) := by
  have hd' : defaultsOf ((ps.map Param.val ++ as.map Param.val).map snd) = some ds := by
    rw [← hd, ← List.map_append, List.map_map]; rfl
  have hn := star_notPlain (w := w) (ks := ks) hv
  have h1 := takePlain_app (ps := as) hn
  have key : takePosonly (paramVals (ps.map Param.val) (as.map Param.val) v (ks.map Param.val) w) =
      some (ps.map Param.val, as.map Param.val ++ (starVals v (ks.map Param.val) ++ ks.map Param.val ++ doubleVals w)) := by
    unfold paramVals takePosonly
    cases ps with
    | nil =>
      simp only [List.map_nil, List.isEmpty_nil, if_true, List.nil_append, List.append_assoc] at h1 ⊢
      rw [h1]
      split
      · rename_i e
        exfalso
        have := (Prod.mk.inj e).2
        rcases hv with rfl | ⟨c, l, fs, rfl⟩
        · cases ks with
          | nil =>
            simp only [starVals, List.map_nil, List.isEmpty_nil, if_true, List.nil_append, doubleVals] at this
            split at this <;> exact nomatch this
          | cons k ks => simp [starVals] at this
        · simp [starVals] at this
      · rfl
    | cons p ps =>
      have h2 := takePlain_app (ps := p :: ps) (r := .str "/" :: (as.map Param.val ++ (starVals v (ks.map Param.val) ++ ks.map Param.val ++ doubleVals w)))
        (.inr (.inl ⟨_, _, rfl⟩))
      have e : (p :: ps).map Param.val ++ (if ((p :: ps).map Param.val).isEmpty then [] else [.str "/"]) ++ as.map Param.val ++
          starVals v (ks.map Param.val) ++ ks.map Param.val ++ doubleVals w =
          (p :: ps).map Param.val ++ .str "/" :: (as.map Param.val ++ (starVals v (ks.map Param.val) ++ ks.map Param.val ++ doubleVals w)) := by
        simp
      rw [e, h2]; rfl
  unfold assemble
  rw [key]
  dsimp only
  rw [h1]
  dsimp only
  rw [takeStar_ok hv]
  dsimp only
  rw [takeDouble_ok hw, hd']
  rfl

/-- The text of the parameters, and how it is read. -/
theorem params_ok (hP : P.Lawful) {ann cl} (hcl : ParamsEnd ann cl) {ps as ks : List Param} {v w : Val} {ds : List Val}
    (hps : ∀ p ∈ ps, p.OK P H ann) (has : ∀ p ∈ as, p.OK P H ann) (hks : ∀ p ∈ ks, p.OK P H ann)
    (hv : ArgsOK P H ann v) (hw : StarOK P H ann w) (hd : defaultsOf ((ps ++ as).map Param.default) = some ds) :
    ∃ xs ys star zs double s ts, PrintsPlain H (ps.map Param.val) xs ∧ PrintsPlain H (as.map Param.val) ys ∧
      PrintsPlain H (ks.map Param.val) zs ∧ PrintsStar H v star ∧ PrintsStar H w double ∧
      argumentsText xs ys star zs double = s ∧ Body P s ts ∧
      (ps.isEmpty && as.isEmpty && star.isNone && ks.isEmpty && double.isNone) = ts.isEmpty ∧ (ts.isEmpty = true → s = []) ∧
      ∀ rest, full (.params ann cl) (ts ++ .sym cl :: rest) =
        some (argumentsOf (ps.map Param.val) (as.map Param.val) v (ks.map Param.val) w ds, rest) := by
  have nn : ∀ {v}, ArgsOK P H ann v → NodeOrNone v := by
    rintro v (rfl | ⟨x, a, rfl, -⟩)
    · exact .inl rfl
    · exact .inr ⟨_, _, _, rfl⟩
  obtain ⟨xs, u1, h1, i1⟩ := plain_items hP hcl hps
  obtain ⟨ys, u2, h2, i2⟩ := plain_items hP hcl has
  obtain ⟨zs, u3, h3, i3⟩ := plain_items hP hcl hks
  obtain ⟨star, u4, h4, i4⟩ := star_items hP hcl hv h3.length
  obtain ⟨double, u5, h5, i5⟩ := double_items hP hcl hw
  have islash : ∃ u6, Items P (.param ann) cl (if (ps.map Param.val).isEmpty then [] else [.str "/"])
      (if xs.isEmpty then [] else [lit "/"]) u6 := by
    have := h1.length
    cases ps <;> cases xs <;> simp at this
    · exact ⟨_, .nil⟩
    · exact ⟨_, .cons (slash_item hcl) .nil⟩
  obtain ⟨u6, i6⟩ := islash
  have hi := items_append (items_append (items_append (items_append (items_append i1 i6) i2) i4) i3) i5
  have hasm := assemble_ok (ks := ks) (nn hv) (nn hw.args) hd
  have hfin : ∀ l ts rest, full (.items (.param ann) cl) (ts ++ .sym cl :: rest) = some (l, rest) →
      Val.elts l = paramVals (ps.map Param.val) (as.map Param.val) v (ks.map Param.val) w →
      full (.params ann cl) (ts ++ .sym cl :: rest) =
        some (argumentsOf (ps.map Param.val) (as.map Param.val) v (ks.map Param.val) w ds, rest) := by
    intro l ts rest h e
    rw [full_at]; show seq (full (.items (.param ann) cl) _) assembleRest = _
    rw [h, seq_some, assembleRest, e, hasm]; rfl
  have hempty : (ps.isEmpty && as.isEmpty && star.isNone && ks.isEmpty && double.isNone) =
      (paramVals (ps.map Param.val) (as.map Param.val) v (ks.map Param.val) w).isEmpty := by
    unfold paramVals
    cases ps <;> cases as <;> cases ks <;> cases h4 <;> cases h5 <;> simp [starVals, doubleVals, argOf]
  have htext : argumentsText xs ys star zs double = interleave (lit ", ") (xs ++ (if xs.isEmpty then [] else [lit "/"]) ++ ys ++
    starTexts star zs ++ zs ++ (double.map (lit "**" ++ ·)).toList) := rfl
  change Items P (.param ann) cl (paramVals (ps.map Param.val) (as.map Param.val) v (ks.map Param.val) w) _ _ at hi
  refine ⟨xs, ys, star, zs, double, argumentsText xs ys star zs double, ?_⟩
  rw [htext, hempty]
  generalize paramVals (ps.map Param.val) (as.map Param.val) v (ks.map Param.val) w = vals at hi hfin
  generalize xs ++ (if xs.isEmpty then [] else [lit "/"]) ++ ys ++ starTexts star zs ++ zs ++ (double.map (lit "**" ++ ·)).toList = ss at hi
  generalize u1 ++ u6 ++ u2 ++ u4 ++ u3 ++ u5 = us at hi
  cases hi with
  | nil =>
    exact ⟨[], h1, h2, h3, h4, h5, rfl, Tail.nil.lx, rfl, fun _ => rfl, fun rest => hfin _ _ rest items_none rfl⟩
  | @cons v s ts vs ss us hv hi =>
    refine ⟨ts ++ us, h1, h2, h3, h4, h5, rfl, ?_, ?_, ?_, fun rest => hfin _ _ rest (items_parse hcl.ne.2.1 hv hi) rfl⟩
    · rw [interleave_cons]; exact hv.body.tail hi.tail
    · obtain ⟨t, r, rfl, -⟩ := hv.head; rfl
    · obtain ⟨t, r, rfl, -⟩ := hv.head; exact fun e => nomatch e

theorem g_lambda (hP : P.Lawful) {ps as ks : List Param} {v w b : Val} {ds : List Val}
    (hps : ∀ p ∈ ps, p.OK P H false) (has : ∀ p ∈ as, p.OK P H false) (hks : ∀ p ∈ ks, p.OK P H false)
    (hv : StarOK P H false v) (hw : StarOK P H false w) (hd : defaultsOf ((ps ++ as).map Param.default) = some ds) (hb : G P H b) :
    G P H (lambda (argumentsOf (ps.map Param.val) (as.map Param.val) v (ks.map Param.val) w ds) b) := by
  have hd' : defaultsOf ((ps.map Param.val ++ as.map Param.val).map snd) = some ds := by
    rw [← hd, ← List.map_append, List.map_map]; rfl
  obtain ⟨y, yt, g⟩ := hb
  obtain ⟨xs, ys, star, zs, double, s, ts, h1, h2, h3, h4, h5, h6, h7, h8, h9, h10⟩ :=
    params_ok hP (ann := false) (cl := .colon) ⟨rfl, fun e => (nomatch e), by decide⟩ hps has hks hv.args hw hd
  refine good_paren (s := lit "lambda" ++ ((if ts.isEmpty then [] else [' ']) ++ (s ++ ':' :: ' ' :: y))) (ts := .sym .kLambda :: (ts ++ .sym .colon :: yt))
    (prints_cast (Prints.lambda h1 h2 h3 h4 h5 hd' g.prints) ?_) (fun rest => ?_)
    ⟨.Lambda, _, rfl, rfl, by decide, by decide⟩ fun rest => ?_
  · rw [h6, List.isEmpty_map, List.isEmpty_map, List.isEmpty_map, h8]
    simp [lit]
  · have hy : Lx P (':' :: ' ' :: (y ++ [')'])) (.sym .colon :: (yt ++ [.sym .rpar])) rest :=
      Lx.colon' (Lx.sp (g.body _ _ rest (Lx.rpar' Lx.nil) (After.cons rfl))) (by simp)
    have hs := h7 _ _ _ hy (After.cons rfl)
    cases he : ts.isEmpty with
    | true =>
      have := h9 he
      subst this
      cases ts with
      | nil =>
        have := Lx.kLambda hP hy (Follow.cons rfl)
        simpa [lit] using this
      | cons => exact nomatch he
    | false =>
      have := Lx.kLambda hP (Lx.sp hs) (Follow.cons rfl)
      simpa [lit] using this
  · refine paren_level (K := 0) (by decide) ?_ ⟨_, _, rfl, rfl, Nat.zero_le _⟩ (fun _ _ e => nomatch e) rfl
    show full .expr _ = _
    rw [full_at, List.cons_append, List.append_assoc, List.cons_append]
    show seq (full (.params false .colon) _) _ = _
    rw [h10, seq_some, g.expr (NoCont.none rfl)]; rfl

end Mcpyrate.PyText
