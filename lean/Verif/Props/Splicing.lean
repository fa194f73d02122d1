import Verif.Lemmas.Splicing
/-
C29 splice_expression, C30 splice_statements.

C30, full property: also for a template that is a single statement.  False of the code
(`C30_single_template_violated`): splicing.py:134-135 overwrites `body`.
-/
namespace Mcpyrate
open Py Splicing

/-- C29: every name `tag` in the template is replaced by the expression and nothing else changes; the
first paste is the expression itself, all others are copies of it. -/
theorem C29_replaces (expr template : Val) (tag : String) (he : IsExpression expr)
    (ht : template.isTree = true) (hne : template ≠ .list []) (hs : Shaped template) :
    ∃ st, spliceExpression expr template tag = .ok (replace (isTag tag) expr template, st) ∧
      st.pastes = pastes (outermost (isTag tag) template).length := by
  have hr : okRepl expr := .inl (isTree_of_isAST he.isAST)
  have hd : Decides (splicer (isPasteExpr tag) expr) (isTag tag) expr paste (preorder template) :=
    splicer_decides fun u hu => isPasteExpr_eq fun hk => hs.name u (mem_preorder.1 hu).1 hk
  refine ⟨_, ?_, paste_foldl _⟩
  rw [← rew_eq _ _ _ _ hr template ht {} hd]
  unfold spliceExpression
  cases template with
  | const c => simp [Val.isTree] at ht
  | node c l fs => simp [truthyV, okExpr_of he]
  | list xs =>
    have : xs.isEmpty = false := by cases xs <;> simp_all
    simp [truthyV, this, okExpr_of he]

/-- C29: if names have no names inside, one paste is made for each occurrence of the tag. -/
theorem C29_count (template : Val) (tag : String)
    (hn : ∀ c l fs, Reach template (.node c l fs) → isTag tag (.node c l fs) = true →
      ∀ u ∈ preorderF fs, isTag tag u = false) :
    outermost (isTag tag) template = (preorder template).filter (isTag tag) :=
  outermost_eq _ _ fun c l fs hm => hn c l fs (mem_preorder.1 hm).1

/-- C29: no tag is left if there is none in the expression. -/
theorem C29_no_tag_left (expr template t' : Val) (tag : String) (st : PSt) (he : IsExpression expr)
    (ht : template.isTree = true) (hne : template ≠ .list []) (hs : Shaped template)
    (h : spliceExpression expr template tag = .ok (t', st))
    (hx : ∀ u, Reach expr u → isTag tag u = false) : ∀ u, Reach t' u → isTag tag u = false := by
  obtain ⟨st', h', _⟩ := C29_replaces expr template tag he ht hne hs
  rw [h'] at h
  cases h
  have hr := isTree_of_isAST he.isAST
  intro u hu
  cases htag : isTag tag u with
  | false => rfl
  | true =>
    have ha : u.isAST = true := by
      simp only [isTag, Bool.and_eq_true] at htag; exact isK_isAST htag.1
    rcases mem_replace _ _ (.inl hr) template u (mem_preorder.2 ⟨hu, ha⟩) with h | ⟨c, l, fs, _, hp, rfl⟩
    · rw [hx u (mem_preorder.1 h).1] at htag; cases htag
    · rw [isTag_replaceF hr htag] at hp; cases hp

/-- C29: a template without the tag is returned unchanged, and no paste is made. -/
theorem C29_no_tag (expr template : Val) (tag : String) (he : IsExpression expr)
    (ht : template.isTree = true) (hne : template ≠ .list []) (hs : Shaped template)
    (hn : ∀ u, Reach template u → isTag tag u = false) :
    ∃ st, spliceExpression expr template tag = .ok (template, st) ∧ st.pastes = [] := by
  have hn' : ∀ u ∈ preorder template, isTag tag u = false := fun u hu => hn u (mem_preorder.1 hu).1
  obtain ⟨st, h1, h2⟩ := C29_replaces expr template tag he ht hne hs
  rw [replace_none _ _ _ hn'] at h1
  refine ⟨st, h1, ?_⟩
  rw [h2, outermost_eq _ _ (fun c l fs hm hp => by rw [hn' _ hm] at hp; cases hp),
    mem_outermost_of_none _ _ hn']
  rfl

/-- C29: an empty template means the expression alone. -/
theorem C29_empty_template (expr : Val) (tag : String) :
    spliceExpression expr (.list []) tag = .ok (expr, {}) ∧
    spliceExpression expr .none tag = .ok (expr, {}) := ⟨rfl, rfl⟩

/-- C29: something that is not an expression is rejected. -/
theorem C29_rejects (expr template : Val) (tag : String) (ht : template.isTree = true)
    (hne : template ≠ .list []) (hx : isExprV expr = false)
    (hm : ∀ n l fs, expr ≠ .node (.marker n) l fs) :
    spliceExpression expr template tag = .error .typeError := by
  have ho : okExpr expr = .ok false := by
    cases expr with
    | const c => rfl
    | list xs => rfl
    | node c l fs =>
      cases c with
      | marker n => exact absurd rfl (hm n l fs)
      | py k => simp only [okExpr, hx]
  unfold spliceExpression
  cases template with
  | const c => simp [Val.isTree] at ht
  | node c l fs => simp [truthyV, ho]
  | list xs =>
    have : xs.isEmpty = false := by cases xs <;> simp_all
    simp [truthyV, this, ho]

/-- C30: in a template that is a list, every statement consisting of the tag is replaced by the
statements of the body, and nothing else changes; the first paste is the body itself, all others are
copies. -/
theorem C30_replaces_partial (body : Val) (template : List Val) (tag : String)
    (hb : body.isTree = true) (hbne : body ≠ .list []) (ht : (Val.list template).isTree = true)
    (hne : template ≠ []) (hs : Shaped (.list template)) :
    ∃ st, spliceStatements body (.list template) tag =
        .ok (replace (isTagStmt tag) (.list (bodyStmts body)) (.list template), st) ∧
      st.pastes = pastes (outermost (isTagStmt tag) (.list template)).length := by
  have hb' : (Val.list (bodyStmts body)).isTree = true := by
    cases body with
    | const c => simp [Val.isTree] at hb
    | list xs => exact hb
    | node c l fs => simp [bodyStmts, Val.isTree, Val.isAST]
  have hd : Decides (splicer (isPasteStmt tag) (.list (bodyStmts body))) (isTagStmt tag)
      (.list (bodyStmts body)) paste (preorder (.list template)) :=
    splicer_decides fun u hu => isPasteStmt_eq fun hk => by
      have hre := (mem_preorder.1 hu).1
      obtain ⟨v, hv⟩ := hs.expr u hre hk
      exact ⟨v, hv, fun hkv => hs.name v (hre.trans (reach_value hv (isK_isAST hkv))) hkv⟩
  refine ⟨_, ?_, paste_foldl _⟩
  rw [← rew_eq _ _ _ _ (.inl hb') (.list template) ht {} hd]
  have h2 : template.isEmpty = false := by cases template <;> simp_all
  unfold spliceStatements
  cases body with
  | const c => simp [Val.isTree] at hb
  | node c l fs => simp [truthyV, bodyStmts, h2]
  | list xs =>
    have h1 : xs.isEmpty = false := by cases xs <;> simp_all
    simp [truthyV, bodyStmts, h1, h2]

/-- C30: no tag statement is left if there is none in the body. -/
theorem C30_no_tag_left_partial (body t' : Val) (template : List Val) (tag : String) (st : PSt)
    (hb : body.isTree = true) (hbne : body ≠ .list []) (ht : (Val.list template).isTree = true)
    (hne : template ≠ []) (hs : Shaped (.list template))
    (h : spliceStatements body (.list template) tag = .ok (t', st))
    (hx : ∀ u, Reach (.list (bodyStmts body)) u → isTagStmt tag u = false) :
    ∀ u, Reach t' u → isTagStmt tag u = false := by
  obtain ⟨st', h', _⟩ := C30_replaces_partial body template tag hb hbne ht hne hs
  rw [h'] at h
  cases h
  have hb' : (Val.list (bodyStmts body)).isTree = true := by
    cases body with
    | const c => simp [Val.isTree] at hb
    | list xs => exact hb
    | node c l fs => simp [bodyStmts, Val.isTree, Val.isAST]
  intro u hu
  cases htag : isTagStmt tag u with
  | false => rfl
  | true =>
    have ha : u.isAST = true := by
      simp only [isTagStmt, Bool.and_eq_true] at htag; exact isK_isAST htag.1
    rcases mem_replace _ _ (.inl hb') (.list template) u (mem_preorder.2 ⟨hu, ha⟩) with
      h | ⟨c, l, fs, _, hp, rfl⟩
    · rw [hx u (mem_preorder.1 h).1] at htag; cases htag
    · rw [isTagStmt_replaceF hb' htag] at hp; cases hp

/-- C30, top level spelled out: the statements before and after a tag stay around the body. -/
theorem C30_one_tag_partial (body pre post : List Val) (s : Val) (tag : String)
    (hb : (Val.list body).isTree = true) (hbne : body ≠ [])
    (ht : (Val.list (pre ++ s :: post)).isTree = true) (hs : Shaped (.list (pre ++ s :: post)))
    (h1 : ∀ u, Reach (.list pre) u → isTagStmt tag u = false) (h2 : isTagStmt tag s = true)
    (h3 : ∀ u, Reach (.list post) u → isTagStmt tag u = false) :
    ∃ st, spliceStatements (.list body) (.list (pre ++ s :: post)) tag =
      .ok (.list (pre ++ body ++ post), st) := by
  obtain ⟨st, h, _⟩ := C30_replaces_partial (.list body) (pre ++ s :: post) tag hb (by simpa using hbne)
    ht (by simp) hs
  refine ⟨st, ?_⟩
  rw [h]
  have happ : ∀ xs ys : List Val, replaceL (isTagStmt tag) (.list body) (xs ++ ys) =
      replaceL (isTagStmt tag) (.list body) xs ++ replaceL (isTagStmt tag) (.list body) ys := by
    intro xs ys
    induction xs with
    | nil => rfl
    | cons x xs ih => cases x <;> simp [replaceL, ih]
  have hsame : ∀ xs : List Val, (∀ u, Reach (.list xs) u → isTagStmt tag u = false) →
      replaceL (isTagStmt tag) (.list body) xs = xs := fun xs hx =>
    replaceL_none _ _ _ fun u hu => hx u (mem_preorder.1 (by rw [preorder]; exact hu)).1
  simp only [replace, bodyStmts, happ]
  rw [hsame pre h1]
  have hsx : s.isAST = true := by
    simp only [isTagStmt, Bool.and_eq_true] at h2; exact isK_isAST h2.1
  obtain ⟨c, l, fs, rfl⟩ := Markers.isAST_eq hsx
  rw [replaceL, hsame post h3, replace, if_pos h2]
  simp [inList]

/-- C30: an empty body is rejected; an empty template means the body alone. -/
theorem C30_edge (body template : Val) (tag : String) (hb : body.isTree = true)
    (hbne : body ≠ .list []) (ht : template.isAST = false) :
    spliceStatements (.list []) template tag = .error .valueError ∧
    spliceStatements body (.list []) tag = .ok (.list (bodyStmts body), {}) := by
  constructor
  · cases template <;> simp_all [spliceStatements, truthyV, Val.isAST]
  · cases body with
    | const c => simp [Val.isTree] at hb
    | node c l fs => simp [spliceStatements, truthyV, bodyStmts]
    | list xs =>
      have h1 : xs.isEmpty = false := by cases xs <;> simp_all
      simp [spliceStatements, truthyV, bodyStmts, h1]

/-- C30 fails for a template that is a single statement: the body is lost, and the tag stays. -/
theorem C30_single_template_violated :
    ∃ body template : Val, body.isTree = true ∧ Splicing.isTagStmt "__paste_here__" template = true ∧
      (spliceStatements body template "__paste_here__").map (·.1) = .ok (.list [template]) :=
  ⟨.list [mk .Pass []], exprStmt (name "__paste_here__"), by decide⟩

/-- C30 fails for a single compound statement: its tag is replaced by the statement itself. -/
theorem C30_single_compound_violated :
    ∃ body template t' : Val, body.isTree = true ∧ template.isK .While = true ∧
      (spliceStatements body template "__paste_here__").map (·.1) = .ok t' ∧
      ¬ (t' = replace (isTagStmt "__paste_here__") body template) ∧
      ∃ u, Reach t' u ∧ isTagStmt "__paste_here__" u = true := by
  refine ⟨.list [mk .Pass []], mk .While [(.test, name "c"),
      (.body, .list [exprStmt (name "__paste_here__")]), (.orelse, .list [])], _, by decide,
    by decide, rfl, by decide, exprStmt (name "__paste_here__"), ?_, by decide⟩
  exact (mem_preorder.1 (by decide)).1

/-! ### Concrete cases -/
section
private def tpl : Val := .list
  [mk .With [(.items, .list [mk .withitem [(.context_expr, name "m"), (.optional_vars, .none)]]),
     (.body, .list [exprStmt (name "__paste_here__"), mk .Pass []])],
   exprStmt (name "__paste_here__"),
   exprStmt (mk .BinOp [(.left, name "__paste_here__"), (.op, mk .Add []), (.right, name "x")])]
private theorem tpl_shaped : Shaped tpl where
  name := by
    intro u hu hk
    have : ∀ u ∈ preorder tpl, u.isK .Name = true → (u.get? .id).isSome = true := by decide +kernel
    exact Option.isSome_iff_exists.1 (this u (mem_preorder.2 ⟨hu, isK_isAST hk⟩) hk)
  expr := by
    intro u hu hk
    have : ∀ u ∈ preorder tpl, u.isK .Expr = true → (u.get? .value).isSome = true := by decide +kernel
    exact Option.isSome_iff_exists.1 (this u (mem_preorder.2 ⟨hu, isK_isAST hk⟩) hk)
private def call : Val := mk .Call [(.func, name "f"), (.args, .list []), (.keywords, .list [])]
example : ∃ st, spliceExpression call tpl "__paste_here__" =
      .ok (replace (isTag "__paste_here__") call tpl, st) ∧ st.pastes = [.original, .copy, .copy] :=
  C29_replaces call tpl "__paste_here__" (.inl rfl) (by decide) (by decide) tpl_shaped
example : ∃ st, spliceStatements (.list [mk .Break [], mk .Continue []]) tpl "__paste_here__" =
      .ok (.list
        [mk .With [(.items, .list [mk .withitem [(.context_expr, name "m"), (.optional_vars, .none)]]),
           (.body, .list [mk .Break [], mk .Continue [], mk .Pass []])],
         mk .Break [], mk .Continue [],
         exprStmt (mk .BinOp [(.left, name "__paste_here__"), (.op, mk .Add []), (.right, name "x")])],
        st) ∧ st.pastes = [.original, .copy] :=
  C30_replaces_partial (.list [mk .Break [], mk .Continue []]) _ "__paste_here__" (by decide) (by decide)
    (by decide) (by decide) tpl_shaped
example : spliceExpression (mk .Pass []) tpl "__paste_here__" = .error .typeError :=
  C29_rejects _ _ _ (by decide) (by decide) (by decide) (by intro n l fs; simp)
private theorem noTag {tag : String} {t : Val} (h : ∀ u ∈ preorder t, isTag tag u = false) :
    ∀ u, Reach t u → isTag tag u = false := by
  intro u hu
  cases e : isTag tag u with
  | false => rfl
  | true =>
    have hk : u.isK .Name = true := by
      unfold isTag at e
      exact (Bool.and_eq_true_iff.1 e).1
    rw [← e]
    exact h u (mem_preorder.2 ⟨hu, isK_isAST hk⟩)
private theorem noTagStmt {tag : String} {t : Val} (h : ∀ u ∈ preorder t, isTagStmt tag u = false) :
    ∀ u, Reach t u → isTagStmt tag u = false := by
  intro u hu
  cases e : isTagStmt tag u with
  | false => rfl
  | true =>
    have hk : u.isK .Expr = true := by
      unfold isTagStmt at e
      exact (Bool.and_eq_true_iff.1 e).1
    rw [← e]
    exact h u (mem_preorder.2 ⟨hu, isK_isAST hk⟩)
private def fieldsOf : Val → List (F × Val)
  | .node _ _ fs => fs
  | _ => []
example : outermost (isTag "__paste_here__") tpl = (preorder tpl).filter (isTag "__paste_here__") ∧
    ((preorder tpl).filter (isTag "__paste_here__")).length = 3 := by
  refine ⟨C29_count tpl "__paste_here__" ?_, by decide +kernel⟩
  intro c l fs hr ht u hu
  have : ∀ u ∈ preorder tpl, isTag "__paste_here__" u = true → ∀ v ∈ preorderF (fieldsOf u), isTag "__paste_here__" v = false := by
    decide +kernel
  exact this _ (mem_preorder.2 ⟨hr, rfl⟩) ht u hu
example : ∃ t' st, spliceExpression call tpl "__paste_here__" = .ok (t', st) ∧
    ∀ u, Reach t' u → isTag "__paste_here__" u = false := by
  obtain ⟨st, h, _⟩ := C29_replaces call tpl "__paste_here__" (.inl rfl) (by decide) (by decide) tpl_shaped
  exact ⟨_, st, h, C29_no_tag_left call tpl _ "__paste_here__" st (.inl rfl) (by decide) (by decide) tpl_shaped h
    (noTag (by decide +kernel))⟩
example : ∃ st, spliceExpression call tpl "other" = .ok (tpl, st) ∧ st.pastes = [] :=
  C29_no_tag call tpl "other" (.inl rfl) (by decide) (by decide) tpl_shaped (noTag (by decide +kernel))
example : ∃ t' st, spliceStatements (.list [mk .Break []]) tpl "__paste_here__" = .ok (t', st) ∧
    ∀ u, Reach t' u → isTagStmt "__paste_here__" u = false := by
  obtain ⟨st, h, _⟩ := C30_replaces_partial (.list [mk .Break []]) _ "__paste_here__" (by decide) (by decide)
    (by decide) (by decide) tpl_shaped
  exact ⟨_, st, h, C30_no_tag_left_partial (.list [mk .Break []]) _ _ "__paste_here__" st (by decide) (by decide)
    (by decide) (by decide) tpl_shaped h (noTagStmt (by decide +kernel))⟩
private def flat : List Val := [mk .Pass [], exprStmt (name "__paste_here__"), exprStmt (name "x")]
private theorem flat_shaped : Shaped (.list flat) where
  name := by
    intro u hu hk
    have : ∀ u ∈ preorder (.list flat), u.isK .Name = true → (u.get? .id).isSome = true := by decide +kernel
    exact Option.isSome_iff_exists.1 (this u (mem_preorder.2 ⟨hu, isK_isAST hk⟩) hk)
  expr := by
    intro u hu hk
    have : ∀ u ∈ preorder (.list flat), u.isK .Expr = true → (u.get? .value).isSome = true := by decide +kernel
    exact Option.isSome_iff_exists.1 (this u (mem_preorder.2 ⟨hu, isK_isAST hk⟩) hk)
example : ∃ st, spliceStatements (.list [mk .Break [], mk .Continue []]) (.list flat) "__paste_here__" =
    .ok (.list [mk .Pass [], mk .Break [], mk .Continue [], exprStmt (name "x")], st) :=
  C30_one_tag_partial [mk .Break [], mk .Continue []] [mk .Pass []] [exprStmt (name "x")] (exprStmt (name "__paste_here__"))
    "__paste_here__" (by decide) (by decide) (by decide) flat_shaped (noTagStmt (by decide +kernel)) (by decide)
    (noTagStmt (by decide +kernel))
end

end Mcpyrate
