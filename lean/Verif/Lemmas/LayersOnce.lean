import Verif.Lemmas.LayersRun
/-
What one layer of expansion makes of a tree.
-/
namespace Mcpyrate.Expander.Layers
open Py

variable {υ : Type} {E : Env υ} {w : World υ}

/-! ### shapes of results -/

/-- Results are nodes; one node for an expression. -/
structure ShapeOk (x y : Val) : Prop where
  nodes : ∀ u ∈ Markers.spliceResult y, u.isAST = true
  expr : x.isAST = true → isMacroStmt x = false → y.isAST = true ∧ isMacroStmt y = false

theorem shape_self {x : Val} (h : T x) : ShapeOk x x := by
  refine ⟨fun u hu => ?_, fun h1 h2 => ⟨h1, h2⟩⟩
  rcases h with rfl | h
  · cases hu
  · cases x with
    | const => cases h
    | list xs => exact List.all_eq_true.mp h u hu
    | node c l fs => rcases List.mem_singleton.mp (show u ∈ [Val.node c l fs] from hu) with rfl; rfl

theorem done_isAST {u : Val} (h : isDone u = true) : u.isAST = true ∧ isMacroStmt u = false := by
  unfold isDone at h; split at h <;> first | exact ⟨rfl, rfl⟩ | cases h

theorem shape_done {x u : Val} (h : isDone u = true) : ShapeOk x u := by
  obtain ⟨h1, h2⟩ := done_isAST h
  refine ⟨fun v hv => ?_, fun _ _ => ⟨h1, h2⟩⟩
  rw [spliceResult_node h1] at hv
  rw [List.mem_singleton.mp hv]; exact h1

theorem flattenV_flatMap {ys : List Val} (h : ∀ y ∈ ys, ∀ u ∈ Markers.spliceResult y, u.isAST = true) :
    Markers.flattenV ys = ys.flatMap Markers.spliceResult := by
  induction ys with
  | nil => rfl
  | cons y ys ih =>
    rw [Markers.flattenV, List.flatMap_cons, ih fun z hz => h z (by simp [hz])]
    congr 1
    cases y with
    | const c => cases c <;> rfl
    | node => rfl
    | list zs => exact flattenV_nodes (List.all_eq_true.mpr (h (.list zs) (by simp)))

theorem splice_ofList (xs : List Val) : Markers.spliceResult (ofList xs) = xs := by
  cases xs <;> rfl

theorem insertCoverage_splice {f k : String} {v r : Val} {l : Loc} (h : insertCoverage f k v l = .ok r) :
    r = v ∨ r = .list (coverageStmt f k l :: Markers.spliceResult v) := by
  unfold insertCoverage at h
  split at h
  · cases h; exact .inl rfl
  · split at h
    · cases h
    · split at h
      · cases h; exact .inr rfl
      · cases h; exact .inr rfl
      · cases h; exact .inr rfl
      · cases h

theorem invokes_stmt {t c : Val} {k : String} {i : Nat} {a : MArgs} (h : Invokes E w t k i a c)
    (hy : a.synt = .block ∨ a.synt = .decorator) : isMacroStmt t = true := by
  cases h with
  | expr => rcases hy with hy | hy <;> cases hy
  | block hk => simp [isMacroStmt, hk]
  | decorator hk => rcases hk with hk | hk <;> simp [isMacroStmt, hk]
  | name => rcases hy with hy | hy <;> cases hy

theorem goodExp_T {y : Syn} {e : Val} (h : GoodExp y e) : T e := h.shape

theorem it_shape {A : Val → Val → Prop} (hA : ∀ e r, T e → A e r → ShapeOk e r) :
    ∀ n x y, T x → It E w A n x y → ShapeOk x y := by
  intro n
  induction n with
  | zero => intro x y _ h; exact h.elim
  | succ n ih =>
    intro x y hT h
    cases h with
    | same h => exact shape_self hT
    | @list xs ys hb hl =>
      have hT' : (Val.list xs).isTree = true := by rcases hT with h | h; cases h; exact h
      refine ⟨fun u hu => ?_, fun h => by cases h⟩
      rw [splice_ofList] at hu
      have key : ∀ y ∈ ys, ∀ u ∈ Markers.spliceResult y, u.isAST = true := by
        intro y hy
        have : ∃ x ∈ xs, It E w A n x y := by
          clear hu hT hT'
          induction hl with
          | nil => cases hy
          | cons hr _ ih =>
            rcases List.mem_cons.mp hy with rfl | hy
            · exact ⟨_, by simp, hr⟩
            · obtain ⟨x, h1, h2⟩ := ih hy; exact ⟨x, by simp [h1], h2⟩
        obtain ⟨x, h1, h2⟩ := this
        exact (ih x y (.inr (isAST_isTree (List.all_eq_true.mp hT' x h1))) h2).nodes
      rw [flattenV_flatMap key, List.mem_flatMap] at hu
      obtain ⟨y, h1, h2⟩ := hu
      exact key y h1 u h2
    | name => exact shape_self hT
    | @generic c l fs fs' =>
      refine ⟨fun u hu => ?_, fun _ h2 => ⟨rfl, ?_⟩⟩
      · rw [List.mem_singleton.mp (show u ∈ [Val.node c l fs'] from hu)]; rfl
      · cases c <;> exact h2
    | call hb hd hp hbc he hf =>
      have hi := invOf_spec hp
      have hge := exp_good he
      have hex : ∀ {e r y}, GoodExp y e → (y = .expr ∨ y = .name) → e.isNone = false → A e r → r.isAST = true ∧ isMacroStmt r = false := by
        intro e r y hge hy hn har
        rcases hge.expr hy with h | ⟨h1, h2⟩
        · rw [hn] at h; cases h
        · exact (hA _ _ (goodExp_T hge) har).expr h1 h2
      have hst : ∀ {x r r'}, isMacroStmt x = true → (∀ u ∈ Markers.spliceResult r', u.isAST = true) →
          ∀ {f k l}, insertCoverage f k r' l = .ok r → ShapeOk x r := by
        intro x r r' hx hr f k l hic
        refine ⟨fun u hu => ?_, fun _ h => by rw [hx] at h; cases h⟩
        rcases insertCoverage_splice hic with rfl | rfl
        · exact hr u hu
        · rcases List.mem_cons.mp hu with rfl | hu
          · rfl
          · exact hr u hu
      cases hf with
      | nameNone => exact shape_done rfl
      | nameSame => exact shape_done rfl
      | name hy hn _ har =>
        obtain ⟨h1, h2⟩ := hex hge (.inr hy) hn har
        exact ⟨(shape_self (.inr (isAST_isTree h1))).nodes, fun _ _ => ⟨h1, h2⟩⟩
      | exprNone => exact shape_done rfl
      | expr hy hn har =>
        rename_i r'
        obtain ⟨h1, h2⟩ := hex hge (.inl hy) hn har
        have : r'.isNone = false := isTree_isNone (isAST_isTree h1)
        rw [if_neg (by simp [this])]
        exact ⟨(shape_self (.inr (isAST_isTree h1))).nodes, fun _ _ => ⟨h1, h2⟩⟩
      | stmtNone hy hn hic =>
        refine hst (invokes_stmt hi hy) (shape_self (goodExp_T hge)).nodes hic
      | stmt hy hn har hic => exact hst (invokes_stmt hi hy) (hA _ _ (goodExp_T hge) har).nodes hic

theorem rd_shape : ∀ D x y, T x → RD E w D x y → ShapeOk x y
  | 0, x, y, hT, ⟨n, h⟩ => it_shape (fun _ _ _ h => h.elim) n x y hT h
  | D + 1, x, y, hT, ⟨n, h⟩ => it_shape (fun e r he h => rd_shape D e r he h) n x y hT h

theorem once_shape (n x y) (hT : T x) (h : It E w Same n x y) : ShapeOk x y :=
  it_shape (fun e r he h => by cases h; exact shape_self he) n x y hT h

/-! ### names of macros and tidiness -/

structure Once (E : Env υ) (w : World υ) (x y : Val) : Prop where
  shape : ShapeOk x y
  tidy : ∀ u ∈ Markers.spliceResult y, Tidy u
  names : NamesNothing E w x → Names E w y → Names E w x
  name : NamesNothing E w x → y.isK .Name = true → Names E w y → y = x
  item : x.isK .withitem = true → y.isK .withitem = true ∧ (hasField x .context_expr = true → hasField y .context_expr = true) ∧
    ∀ c', y.get? .context_expr = some c' → Names E w c' → ∃ c, x.get? .context_expr = some c ∧ Names E w c

theorem _root_.Mcpyrate.Expander.GenF.lookupFwd {R : Val → Val → Prop} {fs fs' : Fields} {f : F} {v : Val} {c : Cls} {l : Loc} (h : GenF R fs fs')
    (hd : ∀ g u, (g, u) ∈ fs → u.isAST = true → ∀ y, R u y → y.isNone = false) (hf : fs.lookup f = some v) :
    ∃ v', fs'.lookup f = some v' := by
  induction h with
  | nil => cases hf
  | const _ ih =>
    rename_i g k _ _ _
    have ih := ih fun g u hm => hd g u (by simp [hm])
    by_cases hg : f = g
    · subst hg; exact ⟨.const k, by simp [List.lookup]⟩
    · have hb : (f == g) = false := by simpa using hg
      simp only [List.lookup, hb] at hf ⊢
      exact ih hf
  | list hl _ ih =>
    rename_i g zs ys _ _ _
    have ih := ih fun g u hm => hd g u (by simp [hm])
    by_cases hg : f = g
    · subst hg; exact ⟨.list ys, by simp [List.lookup]⟩
    · have hb : (f == g) = false := by simpa using hg
      simp only [List.lookup, hb] at hf ⊢
      exact ih hf
  | node hv hr hn _ ih =>
    rename_i g v v' _ _ _
    have ih := ih fun g u hm => hd g u (by simp [hm])
    by_cases hg : f = g
    · subst hg; exact ⟨v', by simp [List.lookup]⟩
    · have hb : (f == g) = false := by simpa using hg
      simp only [List.lookup, hb] at hf ⊢
      exact ih hf
  | deleted hv hr hn _ ih =>
    have := hd _ _ List.mem_cons_self hv _ hr
    rw [hn] at this; cases this

theorem _root_.Mcpyrate.Expander.GenF.mem {R : Val → Val → Prop} {fs fs' : Fields} {f : F} {v' : Val} (h : GenF R fs fs') (hm : (f, v') ∈ fs') :
    ∃ v, (f, v) ∈ fs ∧ Image R v v' := by
  induction h with
  | nil => cases hm
  | const _ ih =>
    rcases List.mem_cons.mp hm with h | h
    · cases h; exact ⟨_, by simp, .const⟩
    · obtain ⟨v, h1, h2⟩ := ih h; exact ⟨v, by simp [h1], h2⟩
  | list hl _ ih =>
    rcases List.mem_cons.mp hm with h | h
    · cases h; exact ⟨_, by simp, .list hl⟩
    · obtain ⟨v, h1, h2⟩ := ih h; exact ⟨v, by simp [h1], h2⟩
  | node hv hr hn _ ih =>
    rcases List.mem_cons.mp hm with h | h
    · cases h; exact ⟨_, by simp, .node hv hr⟩
    · obtain ⟨v, h1, h2⟩ := ih h; exact ⟨v, by simp [h1], h2⟩
  | deleted hv hr hn _ ih =>
    obtain ⟨v, h1, h2⟩ := ih hm; exact ⟨v, by simp [h1], h2⟩

theorem lookup_mem {fs : Fields} {f : F} {v : Val} (h : fs.lookup f = some v) : (f, v) ∈ fs := by
  induction fs with
  | nil => cases h
  | cons p fs ih =>
    obtain ⟨g, u⟩ := p
    by_cases hg : f = g
    · subst hg
      simp only [List.lookup, beq_self_eq_true, Option.some.injEq] at h
      subst h; simp
    · have hb : (f == g) = false := by simpa using hg
      simp only [List.lookup, hb] at h
      exact List.mem_cons_of_mem _ (ih h)

/-- A node that is not an invocation, after its children were expanded. -/
theorem reassemble {c : Cls} {l : Loc} {fs fs' : Fields} (ht : Tidy (.node c l fs)) (hset : Settled E w (.node c l fs))
    (hdone : isDone (.node c l fs) = false)
    (hn : ¬ Invocation E w (.node c l fs)) (hname : c ≠ .py .Name) (h : GenF (Once E w) fs fs') :
    Once E w (.node c l fs) (.node c l fs') ∧ ¬ Invocation E w (.node c l fs') := by
  have hg := ht.1
  have hwf := hg.1
  have hnest := hg.2 _ (.refl _)
  have hst := stmtsInBlocks_iff.mp (ht.2 _ (.refl _))
  have hhead : ∀ {u}, Head (.node c l fs) u → NamesNothing E w u := fun hu => hset _ _ (.refl _ hdone) hu
  have hisK : ∀ k, (Val.node c l fs').isK k = (Val.node c l fs).isK k := fun k => by cases c <;> rfl
  have hnoName : (Val.node c l fs).isK .Name = true → False := by
    intro hk
    obtain ⟨l', fs0, he⟩ := isK_eq hk
    cases he; exact hname rfl
  have hdel : ((Val.node c l fs).isK .Subscript || (Val.node c l fs).isK .Call || (Val.node c l fs).isK .withitem) = true →
      ∀ x ∈ childNodes (.node c l fs), isMacroStmt x = false := by
    intro hk x hx
    simp only [nestingOk, hk, Bool.not_true, Bool.false_or, Bool.and_eq_true] at hnest
    have := List.all_eq_true.mp hnest.1.1 x hx
    simpa using this
  have hkept : ∀ g u, (g, u) ∈ fs → u.isAST = true → ∀ y, Once E w u y → y.isNone = false := by
    intro g u hm hu y hy
    exact isTree_isNone (isAST_isTree (hy.shape.expr hu (hst g u hm).1).1)
  have hfwd : ∀ {f}, hasField (.node c l fs) f = true → hasField (.node c l fs') f = true := by
    intro f hf
    obtain ⟨v, hv⟩ := Option.isSome_iff_exists.mp hf
    obtain ⟨v', hv'⟩ := h.lookupFwd (c := c) (l := l) hkept hv
    exact Option.isSome_iff_exists.mpr ⟨v', hv'⟩
  have hlist : ∀ {f}, hasList (.node c l fs) f = true → hasList (.node c l fs') f = true := by
    intro f hf
    unfold hasList at hf
    split at hf
    · rename_i xs hxs
      obtain ⟨ys, h1, _⟩ := h.lookupList hxs
      unfold hasList
      rw [show (Val.node c l fs').get? f = some (.list ys) from h1]
    · cases hf
  have hfield : ((Val.node c l fs).isK .Subscript || (Val.node c l fs).isK .Call || (Val.node c l fs).isK .withitem) = true →
      ∀ {f v'}, (Val.node c l fs').get? f = some v' → ∃ v, (Val.node c l fs).get? f = some v ∧ Image (Once E w) v v' := by
    intro hk f v' hv
    exact h.lookup (c := c) (l := l) (fun x hx y hy =>
      isTree_isNone (isAST_isTree (hy.shape.expr (childNodes_isAST hx) (hdel hk x hx)).1)) hv
  have himg : ∀ {v v'}, Image (Once E w) v v' → Names E w v' → Once E w v v' := by
    intro v v' hi hv
    cases hi with
    | const => cases hv.isAST
    | list => cases hv.isAST
    | node _ hr => exact hr
  -- the items of a `with`
  have hitems : (Val.node c l fs).isK .With = true → ∃ items ys, (Val.node c l fs).get? .items = some (.list items) ∧
      (Val.node c l fs').get? .items = some (.list ys) ∧
      ∀ i ∈ ys, ∃ x ∈ items, x.isK .withitem = true ∧ hasField x .context_expr = true ∧ Once E w x i := by
    intro hk
    obtain ⟨items, h1, h2⟩ := hwf.withItems hk
    obtain ⟨ys, h3, h4⟩ := h.lookupList h1
    refine ⟨items, ys, h1, h3, fun i him => ?_⟩
    rcases h4.mem him with ⟨h5, h6⟩ | ⟨x, h5, y, h6, h7, h8⟩
    · rw [isK_isAST (h2 _ h5).1] at h6; cases h6
    · have h9 := (h7.item (h2 x h5).1).1
      rw [spliceResult_node (isK_isAST h9)] at h8
      rcases List.mem_singleton.mp h8 with rfl
      obtain ⟨h10, c0, _, h11, _⟩ := h2 x h5
      exact ⟨x, h5, h10, by simp [hasField, h11], h7⟩
  -- not an invocation
  have hinv : ¬ Invocation E w (.node c l fs') := by
    intro hi
    cases hi with
    | expr hk hv hcn =>
      rw [hisK] at hk
      obtain ⟨v, h1, h2⟩ := hfield (by simp [hk]) hv
      exact hn (.expr hk h1 ((himg h2 hcn).names (hhead (.subscript hk h1)) hcn))
    | block hk hi him hic hcn =>
      rw [hisK] at hk
      obtain ⟨items, ys, h1, h2, h3⟩ := hitems hk
      rw [hi] at h2; cases h2
      obtain ⟨x, h5, h6, _, h7⟩ := h3 _ him
      obtain ⟨c0, h11, h12⟩ := (h7.item h6).2.2 _ hic hcn
      exact hn (.block hk h1 h5 h11 h12)
    | decorator hk hi him hcn =>
      rw [hisK, hisK] at hk
      obtain ⟨items, h1⟩ := hwf.decorators hk
      obtain ⟨ys, h3, h4⟩ := h.lookupList h1
      have : (Val.node c l fs').get? .decorator_list = some (.list ys) := h3
      rw [hi] at this; cases this
      rcases h4.mem him with ⟨h5, h6⟩ | ⟨x, h5, y, h6, h7, h8⟩
      · rw [hcn.isAST] at h6; cases h6
      · have h9 := (h7.shape.expr h6 ((hst _ _ (lookup_mem h1)).2 rfl _ rfl x h5)).1
        rw [spliceResult_node h9] at h8
        rcases List.mem_singleton.mp h8 with rfl
        exact hn (.decorator hk h1 h5 (h7.names (hhead (.decorator hk h1 h5)) hcn))
    | name hk => rw [hisK] at hk; exact hnoName hk
  refine ⟨⟨?_, fun u hu => ?_, fun _ hnm => ?_, fun _ hk => ?_, fun hk => ⟨by rw [hisK]; exact hk, ?_, fun c' h1 h2 => ?_⟩⟩, hinv⟩
  · -- shape
    refine ⟨fun u hu => ?_, fun _ h2 => ⟨rfl, ?_⟩⟩
    · rw [List.mem_singleton.mp (show u ∈ [Val.node c l fs'] from hu)]; rfl
    · cases c <;> exact h2
  · -- tidy
    rcases List.mem_singleton.mp (show u ∈ [Val.node c l fs'] from hu) with rfl
    refine tidy_of ?_ ?_ ?_ fun u hu => ?_
    · have hf := hwf.self
      cases c with
      | marker => rfl
      | py k =>
        cases k
        case Name => exact absurd rfl hname
        case Subscript =>
          simp only [fieldsOk, Bool.and_eq_true] at hf ⊢
          exact ⟨hfwd hf.1, hfwd hf.2⟩
        case Call =>
          simp only [fieldsOk, Bool.and_eq_true] at hf ⊢
          exact ⟨⟨hfwd hf.1.1, hlist hf.1.2⟩, hfwd hf.2⟩
        case Tuple => exact hlist hf
        case FunctionDef => exact hlist hf
        case ClassDef => exact hlist hf
        case With =>
          obtain ⟨items, ys, h1, h2, h3⟩ := hitems rfl
          simp only [fieldsOk]
          rw [h2]
          simp only [List.all_eq_true, Bool.and_eq_true]
          intro i hi
          obtain ⟨x, h5, h6, h10, h7⟩ := h3 i hi
          obtain ⟨h8, h9, _⟩ := h7.item h6
          exact ⟨h8, h9 h10⟩
        all_goals rfl
    · simp only [nestingOk, hisK, Bool.and_eq_true, Bool.or_eq_true, Bool.not_eq_true'] at hnest ⊢
      refine ⟨⟨?_, hnest.1.2.imp id fun hb => hfwd hb⟩, .inl ?_⟩
      · cases hk : ((Val.node c l fs).isK .Subscript || (Val.node c l fs).isK .Call || (Val.node c l fs).isK .withitem) with
        | false => exact .inl rfl
        | true =>
          refine .inr (List.all_eq_true.mpr fun u hu => ?_)
          obtain ⟨x, hx, y, h2, h3⟩ := h.child (l := l) hu
          obtain ⟨h4, h5⟩ := h2.shape.expr (childNodes_isAST hx) (hdel hk x hx)
          rw [spliceResult_node h4] at h3
          rw [List.mem_singleton.mp h3, h5]; rfl
      · cases hk : (Val.node c l fs).isK .Name with
        | false => rfl
        | true => exact (hnoName hk).elim
    · rw [stmtsInBlocks_iff]
      intro f v' hm
      obtain ⟨v, h1, h2⟩ := h.mem hm
      obtain ⟨h3, h4⟩ := hst f v h1
      cases h2 with
      | const => exact ⟨rfl, fun _ xs hx => by cases hx⟩
      | list hl =>
        refine ⟨rfl, fun hf xs hx u hu => ?_⟩
        cases hx
        rcases hl.mem hu with ⟨h5, h6⟩ | ⟨x, h5, y, h6, h7, h8⟩
        · cases u with
          | const | list => rfl
          | node => cases h6
        · obtain ⟨h9, h10⟩ := h7.shape.expr h6 (h4 hf _ rfl x h5)
          rw [spliceResult_node h9] at h8
          rw [List.mem_singleton.mp h8]; exact h10
      | node hv hr =>
        obtain ⟨h5, h6⟩ := hr.shape.expr hv h3
        refine ⟨h6, fun _ xs hx => ?_⟩
        rw [hx] at h5; cases h5
    · obtain ⟨x, _, y, h2, h3⟩ := h.child (l := l) hu
      exact h2.tidy u h3
  · -- names
    rcases names_cases hnm with hk | hi | hk
    · rw [hisK] at hk; exact (hnoName hk).elim
    · exact absurd hi hinv
    · obtain ⟨k, as, id, hc, ha⟩ := hnm
      cases hc with
      | plain hk' => exact absurd (isK_inj hk hk') (by decide)
      | bracket hk' => exact absurd (isK_inj hk hk') (by decide)
      | brackets hk' => exact absurd (isK_inj hk hk') (by decide)
      | parens _ hv hvk hi hkws hne he =>
        rw [hisK] at hk
        have hch := hdel (by simp [hk])
        obtain ⟨v0, h1, h2⟩ := hfield (by simp [hk]) hv
        have hnn : Names E w _ := ⟨k, [], id, .plain hvk hi, ha.1, ha.2.1, .inl rfl⟩
        have := (himg h2 hnn).name (hhead (.call hk h1)) hvk hnn
        subst this
        have hsome : ∀ {x y}, x ∈ childNodes (.node c l fs) → Once E w x y → Markers.spliceResult y ≠ [] := by
          intro x y hx hy
          rw [spliceResult_node (hy.shape.expr (childNodes_isAST hx) (hch x hx)).1]; simp
        have hnil : ∀ {f xs ys}, (Val.node c l fs).get? f = some (.list xs) → GenL (Once E w) xs ys → (ys = [] ↔ xs = []) := by
          intro f xs ys hf hl
          exact hl.nil_iff fun x hx hxa y hy => hsome (get?_list_child hf hx hxa) hy
        obtain ⟨kws0, h3, h4⟩ := hfield (by simp [hk]) hkws
        have hk0 : kws0 = .list [] ∨ kws0 = .none := by
          cases h4 with
          | const => exact hne
          | list hl =>
            rcases hne with hne | hne
            · cases hne
              exact .inl (by rw [(hnil h3 hl).mp rfl])
            · cases hne
          | node hva hr =>
            have h5 := hsome (get?_child h3 hva) hr
            rcases hne with rfl | rfl
            · exact absurd rfl h5
            · exact absurd rfl h5
        obtain ⟨as0, h5, h6⟩ := hfield (by simp [hk]) he
        obtain ⟨l0, fs0, he0⟩ := isK_eq hk
        have hf := hwf.self
        rw [he0] at hf
        simp only [fieldsOk, Bool.and_eq_true, hasList] at hf
        rw [← he0, h5] at hf
        cases h6 with
        | node hva _ => cases as0 <;> simp_all [Val.isAST]
        | list hl =>
          refine ⟨k, _, id, .parens hk h1 hvk hi h3 hk0 h5, ha.1, ha.2.1, ?_⟩
          rcases ha.2.2 with rfl | hp
          · exact .inl ((hnil h5 hl).mp rfl)
          · exact .inr hp
  · rw [hisK] at hk; exact (hnoName hk).elim
  · exact fun h => hfwd h
  · obtain ⟨v, h3, h4⟩ := hfield (by simp [hk]) h1
    exact ⟨v, h3, (himg h4 h2).names (hhead (.item hk h3)) h2⟩

theorem tidy_coverageExpr (l : Loc) : Tidy (coverageExpr l) := tidy_check rfl

theorem tidy_coverageStmt (f k : String) (l : Loc) : Tidy (coverageStmt f k l) := tidy_check rfl

theorem tidy_done {e : Val} (h : Tidy e) (he : isMacroStmt e = false) : Tidy (done e) := by
  refine tidy_of rfl rfl (stmtsInBlocks_iff.mpr fun f v hm => ?_) fun u hu => ?_
  · rcases List.mem_singleton.mp hm with h; cases h
    exact ⟨he, fun h => by cases h⟩
  · simp only [done, childNodes, List.flatMap_cons, List.flatMap_nil, List.append_nil] at hu
    cases e with
    | const => cases hu
    | list xs => exact tidy_child h hu
    | node => rcases List.mem_singleton.mp hu with rfl; exact h

theorem tidy_splice {e : Val} (hT : T e) (h : Tidy e) : ∀ u ∈ Markers.spliceResult e, Tidy u := by
  intro u hu
  rcases hT with rfl | hT
  · cases hu
  · cases e with
    | const => cases hT
    | list xs => exact tidy_item h hT hu
    | node => rcases List.mem_singleton.mp (show u ∈ [_] from hu) with rfl; exact h

/-- The expansion of an invocation that is not the name of a macro. -/
theorem exp_names {t c e : Val} {k : String} {i : Nat} {a : MArgs} (hi : Invokes E w t k i a c) (he : Exp E i a e)
    (hnn : NamesNothing E w t) : ¬ Names E w e := by
  obtain ⟨v, hv, _, hf⟩ := he
  rcases fixed_like (gives_shape hv) hf with ⟨rfl, rfl⟩ | ⟨_, m, l1, l2⟩
  · intro h; cases h.isAST
  · intro h
    exact hnn k i a c hi v hv (l1.names.mp (l2.names.mp h))

theorem done_names {u : Val} (h : isDone u = true) : ¬ Names E w u := by
  intro hn; rw [hn.isDone] at h; cases h

theorem settled_child {t u : Val} (h : Settled E w t) (hd : isDone t = false) (hu : u ∈ childNodes t) : Settled E w u :=
  fun v c ho hc => h v c (.step hd hu ho) hc

theorem once_self {x : Val} (hT : T x) (ht : Tidy x) : Once E w x x :=
  ⟨shape_self hT, tidy_splice hT ht, fun _ h => h, fun _ _ _ => rfl, fun hk => ⟨hk, fun h => h, fun c' h1 h2 => ⟨c', h1, h2⟩⟩⟩

theorem once_once : ∀ n x y, T x → Tidy x → Settled E w x → It E w Same n x y → Once E w x y := by
  intro n
  induction n with
  | zero => intro x y _ _ _ h; exact h.elim
  | succ n ih =>
    intro x y hT ht hset h
    have hshape := once_shape (n + 1) x y hT h
    cases h with
    | same h => exact once_self hT ht
    | @list xs ys hb hl =>
      have hT' : (Val.list xs).isTree = true := by rcases hT with h | h; cases h; exact h
      have key : ∀ y ∈ ys, ∃ x ∈ xs, Once E w x y := by
        intro y hy
        have : ∃ x ∈ xs, It E w Same n x y := by
          clear hT hT' ht hset hshape
          induction hl with
          | nil => cases hy
          | cons hr _ ih =>
            rcases List.mem_cons.mp hy with rfl | hy
            · exact ⟨_, by simp, hr⟩
            · obtain ⟨x, h1, h2⟩ := ih hy; exact ⟨x, by simp [h1], h2⟩
        obtain ⟨x, h1, h2⟩ := this
        have hxa := List.all_eq_true.mp hT' x h1
        exact ⟨x, h1, ih x y (.inr (isAST_isTree hxa)) (tidy_item ht hT' h1)
          (settled_child hset rfl (List.mem_filter.mpr ⟨h1, hxa⟩)) h2⟩
      have hnot : ∀ {zs}, (ofList zs).isAST = false := by intro zs; cases zs <;> rfl
      refine ⟨hshape, fun u hu => ?_, fun _ hn => ?_, fun _ hk => ?_, fun hk => by cases hk⟩
      · rw [splice_ofList, flattenV_flatMap fun y hy => ?_, List.mem_flatMap] at hu
        · obtain ⟨y, h1, h2⟩ := hu
          obtain ⟨x, _, h3⟩ := key y h1
          exact h3.tidy u h2
        · obtain ⟨x, _, h3⟩ := key y hy
          exact h3.shape.nodes
      · have := hn.isAST; rw [hnot] at this; cases this
      · have := isK_isAST hk; rw [hnot] at this; cases this
    | name => exact once_self hT ht
    | @generic c l fs fs' hb hd hk hi hg =>
      refine (reassemble ht hset hd hi hk ?_).1
      have : ∀ fs fs', GenF (It E w Same n) fs fs' → (∀ x ∈ childNodes (.node c l fs), Tidy x ∧ Settled E w x) → GenF (Once E w) fs fs' := by
        intro fs fs' hg hch
        have hrest : ∀ {p : F × Val} {fs : Fields} {x}, x ∈ childNodes (.node c l fs) → x ∈ childNodes (.node c l (p :: fs)) := by
          intro p fs x hx
          simp only [childNodes, List.mem_flatMap] at hx ⊢
          obtain ⟨q, hq, hx⟩ := hx
          exact ⟨q, List.mem_cons_of_mem _ hq, hx⟩
        induction hg with
        | nil => exact .nil
        | const _ ih2 => exact .const (ih2 fun x hx => hch x (hrest hx))
        | @list f xs ys _ _ hl _ ih2 =>
          refine .list ?_ (ih2 fun x hx => hch x (hrest hx))
          have hxs : ∀ x ∈ xs, x.isAST = true → Tidy x ∧ Settled E w x := fun x hx hxa => hch x (by simp [childNodes, hx, hxa])
          clear ih2 hch
          induction hl with
          | nil => exact .nil
          | other hx _ ih3 => exact .other hx (ih3 fun x hx => hxs x (by simp [hx]))
          | item hx hr _ ih3 =>
            obtain ⟨h1, h2⟩ := hxs _ List.mem_cons_self hx
            exact .item hx (ih _ _ (.inr (isAST_isTree hx)) h1 h2 hr) (ih3 fun x hx => hxs x (by simp [hx]))
        | @node f v v' gs _ hv hr hn _ ih2 =>
          have hm : v ∈ childNodes (.node c l ((f, v) :: gs)) := by
            rw [childNodes, List.flatMap_cons]
            cases v with
            | const | list => cases hv
            | node => simp
          obtain ⟨h1, h2⟩ := hch v hm
          exact .node hv (ih _ _ (.inr (isAST_isTree hv)) h1 h2 hr) hn (ih2 fun x hx => hch x (hrest hx))
        | @deleted f v v' gs _ hv hr hn _ ih2 =>
          have hm : v ∈ childNodes (.node c l ((f, v) :: gs)) := by
            rw [childNodes, List.flatMap_cons]
            cases v with
            | const | list => cases hv
            | node => simp
          obtain ⟨h1, h2⟩ := hch v hm
          exact .deleted hv (ih _ _ (.inr (isAST_isTree hv)) h1 h2 hr) hn (ih2 fun x hx => hch x (hrest hx))
      exact this fs fs' hg fun x hx => ⟨tidy_child ht hx, settled_child hset hd hx⟩
    | @call _ k i a c e _ hb hd hp hbc he hf =>
      have hi := invOf_spec hp
      have hge := exp_good he
      have hwi : x.isK .withitem = true → False := by
        intro hk
        cases hi with
        | expr hk' => exact absurd (isK_inj hk hk') (by decide)
        | block hk' => exact absurd (isK_inj hk hk') (by decide)
        | decorator hk' => rcases hk' with hk' | hk' <;> exact absurd (isK_inj hk hk') (by decide)
        | name hk' => exact absurd (isK_inj hk hk') (by decide)
      have hfin : (∀ u ∈ Markers.spliceResult y, Tidy u) → (NamesNothing E w x → ¬ Names E w y) → Once E w x y :=
        fun h1 h2 => ⟨hshape, h1, fun h h' => absurd h' (h2 h), fun h _ h' => absurd h' (h2 h), fun hk => (hwi hk).elim⟩
      have hdn : isDone y = true → Tidy y → Once E w x y := by
        intro h1 h2
        refine hfin (tidy_splice (.inr (isAST_isTree (done_isAST h1).1)) h2) fun _ => done_names h1
      have hself : y = e → Once E w x y := fun (h : y = e) => by
        subst h
        exact hfin (tidy_splice (goodExp_T hge) hge.tidy) fun hn => exp_names hi he hn
      have hcov : ∀ {f k l}, insertCoverage f k e l = .ok y → Once E w x y := by
        intro f k l hic
        rcases insertCoverage_splice hic with h | h
        · exact hself h
        · subst h
          refine hfin (fun u hu => ?_) fun _ hn => by cases hn.isAST
          rcases List.mem_cons.mp hu with rfl | hu
          · exact tidy_coverageStmt _ _ _
          · exact tidy_splice (goodExp_T hge) hge.tidy u hu
      cases hf with
      | nameNone => exact hdn rfl (tidy_coverageExpr _)
      | nameSame hy hn =>
        refine hdn rfl (tidy_done hge.tidy ?_)
        rcases hge.expr (.inr hy) with h | h
        · rw [hn] at h; cases h
        · exact h.2
      | name _ _ _ har => exact hself har
      | exprNone => exact hdn rfl (tidy_coverageExpr _)
      | expr hy hn har =>
        cases har
        rw [hn] at hfin hdn hself hcov hshape ⊢
        exact hself rfl
      | stmtNone _ _ hic => exact hcov hic
      | stmt _ _ har hic => cases har; exact hcov hic

end Mcpyrate.Expander.Layers
