import Verif.Lemmas.ParsedPatterns
/-
C47: what the reference parser returns for statements.
-/
namespace Mcpyrate.PyText
open Py

@[local simp] theorem elts_list {xs : List Val} : Val.elts (.list xs) = xs := rfl

theorem toCtxL_mem {c : K} : ∀ {ws ts : List Val}, toCtxL c ws = some ts → ∀ t ∈ ts, ∃ w ∈ ws, toCtx c w = some t
  | [], ts, h, t, m => by cases h; cases m
  | w :: ws, ts, h, t, m => by
    unfold toCtxL at h
    split at h
    · rename_i y ys e1 e2
      cases h
      rcases List.mem_cons.1 m with rfl | m
      · exact ⟨w, by simp, e1⟩
      · obtain ⟨w', hw, e⟩ := toCtxL_mem e2 t m
        exact ⟨w', by simp [hw], e⟩
    · cases h

theorem toCtxL_ne {c : K} {ws ts : List Val} (h : toCtxL c ws = some ts) (hw : ws ≠ []) : ts ≠ [] := by
  cases ws with
  | nil => exact absurd rfl hw
  | cons w ws =>
    unfold toCtxL at h
    split at h
    · cases h; simp
    · cases h

variable {P : Reading} {p : Parser}

theorem LN.elts {Q : Val → Prop} {l : Val} (h : LN Q l) : Val.elts l ≠ [] ∧ ∀ x ∈ Val.elts l, Q x := by
  obtain ⟨xs, rfl, h1, h2⟩ := h
  exact ⟨h1, h2⟩

section
variable (hp : Sound P p) {ts : List Tok} (ht : Toks P ts)
include hp ht

/-! Lists, and imports. -/

omit hp in
theorem y_ident : Yields P (pIdent ts) (Out P .ident) := by
  unfold pIdent
  split
  · exact .ret ⟨_, ht.head, rfl⟩ (by toks!)
  · exact .none

theorem y_sep (item : NT) (hi : Pre P item) : Yields P (pSep p item ts) (LN (Out P item)) := by
  refine (hp.y hi ht).seq fun x r hx hr => ?_
  unfold sepRest
  split
  · exact (hp.y (nt := .sep item) hi (by toks!)).seq fun l r hl hr => .ret (LL.cons hx (LN.ll hl)) hr
  · exact .ret (.one hx) hr

theorem y_dotted : Yields P (pDotted p ts) (Out P .dotted) := by
  unfold pDotted
  split
  · rename_i x r
    refine (hp.y (nt := .dotted) trivial (by toks!)).seq fun v r hv hr => .ret ?_ hr
    obtain ⟨xs, hn, hxs, rfl⟩ := hv
    refine ⟨x :: xs, by simp, by simpa using ⟨ht.head, hxs⟩, ?_⟩
    cases xs with
    | nil => exact absurd rfl hn
    | cons y ys => rfl
  · exact .ret ⟨[_], by simp, fun x m => by rw [List.mem_singleton.1 m]; exact ht.head, rfl⟩ (by toks!)
  · exact .none

omit hp in
theorem y_asName {a : Val} : Yields P (asName a ts) (fun v => ∃ n, OptName P n ∧ v = aliasOf a n) := by
  unfold asName
  split
  · exact .ret ⟨_, .inr ⟨_, ht.tail.head, rfl⟩, rfl⟩ (by toks!)
  · exact .ret ⟨_, .inl rfl, rfl⟩ ht

theorem y_importAs : Yields P (pImportAs p ts) (ImportAlias P) := by
  refine (hp.y (nt := .dotted) trivial ht).seq fun v r hv hr => (y_asName hr).mono fun w hw => ?_
  obtain ⟨xs, h1, h2, rfl⟩ := hv
  obtain ⟨n, h3, rfl⟩ := hw
  exact ⟨xs, n, h1, h2, h3, rfl⟩

theorem y_fromAs : Yields P (pFromAs p ts) (FromAlias P) := by
  refine (hp.y (nt := .ident) trivial ht).seq fun v r hv hr => (y_asName hr).mono fun w hw => ?_
  obtain ⟨x, h1, rfl⟩ := hv
  obtain ⟨n, h3, rfl⟩ := hw
  exact ⟨x, n, h1, h3, rfl⟩

theorem y_dots : Yields P (pDots p ts) (Out P .dots) := by
  unfold pDots
  split
  · refine (hp.y (nt := .dots) trivial (by toks!)).seq fun v r hv hr => .ret ?_ hr
    obtain ⟨n, rfl⟩ := hv
    exact ⟨1 + n, by simp [plusInt, Val.int]⟩
  · refine (hp.y (nt := .dots) trivial (by toks!)).seq fun v r hv hr => .ret ?_ hr
    obtain ⟨n, rfl⟩ := hv
    exact ⟨3 + n, by simp [plusInt, Val.int]⟩
  · exact .ret ⟨0, rfl⟩ ht

theorem y_fromNames : Yields P (fromNames p ts) (fun v => ∃ ns, v = .list ns ∧ FromNames P ns) := by
  unfold fromNames
  split
  · exact .ret ⟨_, rfl, .inl rfl⟩ (by toks!)
  · refine (hp.y (nt := .sep .fromAs) trivial ht).mono fun v hv => ?_
    obtain ⟨xs, rfl, h1, h2⟩ := hv
    exact ⟨xs, rfl, .inr ⟨h1, h2⟩⟩

theorem y_fromImport {n : Nat} {m : Val} (hm : FromModule P m n) : Yields P (fromImport p (.int n) m ts) (GS P) := by
  unfold fromImport
  split
  · refine (y_fromNames hp (by toks!)).seq fun l r hl hr => .ret (fun _ => ?_) hr
    obtain ⟨ns, rfl, h⟩ := hl
    exact .importFrom hm h
  · exact .none

theorem y_fromModule {n : Nat} : Yields P (fromModule p (.int n) ts) (GS P) := by
  unfold fromModule
  split
  · refine (hp.y (nt := .dotted) trivial ht).seq fun v r hv hr => y_fromImport hp hr ?_
    obtain ⟨xs, h1, h2, rfl⟩ := hv
    exact .inr ⟨xs, h1, h2, rfl⟩
  · cases n with
    | zero => exact .none
    | succ n => exact y_fromImport hp ht (.inl ⟨rfl, by simp⟩)

/-! Simple statements. -/

theorem y_raiseFrom {a : Val} (ha : Ge P a) : Yields P (raiseFrom p a ts) (GS P) := by
  unfold raiseFrom
  split
  · exact (hp.y (nt := .expr) trivial (by toks!)).seq fun b r hb hr => .ret (fun h => .raise (ha (part% h, .exc)) (.some (hb (part% h, .cause)))) hr
  · exact .ret (fun h => .raise (ha (part% h, .exc)) .none) ht

theorem y_assertMsg {a : Val} (ha : Ge P a) : Yields P (assertMsg p a ts) (GS P) := by
  unfold assertMsg
  split
  · exact (hp.y (nt := .expr) trivial (by toks!)).seq fun b r hb hr => .ret (fun h => .assert (ha (part% h, .test)) (.some (hb (part% h, .msg)))) hr
  · exact .ret (fun h => .assert (ha (part% h, .test)) .none) ht

theorem y_assigns : Yields P (pAssigns p ts) (LN (GI P)) := by
  refine (hp.y (nt := .elem) trivial ht).seq fun v r hv hr => ?_
  unfold assignsRest
  split
  · exact (hp.y (nt := .assigns) trivial (by toks!)).seq fun l r hl hr => .ret (LL.cons hv (LN.ll hl)) hr
  · exact .ret (.one hv) hr

omit hp ht in
theorem gs_assign {v : Val} {xs : List Val} {a : Val} (hv : GI P v) (hx : ∀ x ∈ xs, GI P x) (hn : xs ≠ [])
    (e : assignOf (v :: xs) = some a) : GS P a := by
  have hall : ∀ x ∈ v :: xs, GI P x := by
    intro x m
    rcases List.mem_cons.1 m with rfl | m
    · exact hv
    · exact hx x m
  unfold assignOf at e
  split at e
  · rename_i w ts e1 e2
    split at e
    · cases e
    · rename_i hs
      cases e
      intro h
      have hts : ∀ t ∈ ts, Plain t := parts% h, .targets
      have hdl : (v :: xs).dropLast ≠ [] := by
        cases xs with
        | nil => exact absurd rfl hn
        | cons y ys => simp
      refine .assign (toCtxL_ne e2 hdl) (fun t m => ?_) ((hall w (List.mem_of_getLast? e1)).expr hs (part% h, .value))
      obtain ⟨u, hu, e3⟩ := toCtxL_mem e2 t m
      exact ⟨u, hall u ((List.dropLast_sublist _).subset hu) (plain_toCtx _ _ _ e3 (hts t m)), e3⟩
  · cases e

omit hp ht in
theorem single_out {v t : Val} (hv : GI P v) (e : single v = some t) (ht : Plain t) : IsSingle P t := by
  refine ⟨v, ?_, e⟩
  have e' := e
  unfold single at e'
  split at e'
  · rename_i hk
    refine (hv (plain_toCtx _ _ _ e' ht)).unstarred ?_
    unfold isStarred
    cases hs : v.isK .Starred with
    | false => rfl
    | true =>
      exfalso
      have : ∀ k : K, k ≠ .Starred → v.isK k = false := by
        intro k hk'
        cases v with
        | node c l fs =>
          cases c with
          | py k' => simp [Val.isK] at hs ⊢; subst hs; exact fun h => hk' h
          | marker m => cases hs
        | list _ => cases hs
        | const _ => cases hs
      simp [this] at hk
  · cases e'

omit hp ht in
theorem augSym_ok {s : Sym} {k : K} (h : augSym s = some k) : k ∈ binaryOps := by
  unfold augSym at h
  split at h <;> cases h <;> decide

theorem y_annValue {t a : Val} {s : Int} (hs : ∀ v, Plain (annAssignOf t a v s) → Opt P v → Stmt P (annAssignOf t a v s)) :
    Yields P (annValue p t a s ts) (GS P) := by
  unfold annValue
  split
  · exact (hp.y (nt := .expr) trivial (by toks!)).seq fun v r hv hr => .ret (fun h => hs v h (.some (hv (part% h, .value)))) hr
  · exact .ret (fun h => hs _ h .none) ht

theorem y_simpleRest {us : List Tok} {v : Val} (hu : Toks P us) (hv : GI P v)
    (hx : ∀ x r, us = .name x :: .sym .colon :: r → v = name x) : Yields P (simpleRest p us v ts) (GS P) := by
  unfold simpleRest
  split
  · split
    · exact .none
    · rename_i hs
      exact .ret (fun h => .expr (hv.expr hs (part% h, .value))) ht
  · refine (hp.y (nt := .assigns) trivial (by toks!)).seq fun l r hl hr => .map (fun a e => ?_) hr
    exact gs_assign hv hl.elts.2 hl.elts.1 e
  · split
    · rename_i t e
      refine (hp.y (nt := .expr) trivial (by toks!)).seq fun a r ha hr => y_annValue hp hr fun w h hw => ?_
      unfold simpleTarget at h ⊢
      split at h
      · rename_i x r'
        cases hx x r' rfl
        cases e
        exact .annName hu.head (ha (part% h, .annotation)) hw
      · exact .annOther (single_out hv e (part% h, .target)) (ha (part% h, .annotation)) hw
    · exact .none
  · split
    · rename_i t k e1 e2
      exact (hp.y (nt := .expr) trivial (by toks!)).seq fun a r ha hr =>
        .ret (fun h => .augAssign (augSym_ok e2) (single_out hv e1 (part% h, .target)) (ha (part% h, .value))) hr
    · exact .none
  · exact .none

omit hp ht in
theorem idents {l : Val} (hl : LN (Out P .ident) l) : ∃ xs : List String, xs ≠ [] ∧ (∀ x ∈ xs, IsName P x) ∧ Val.elts l = xs.map .str := by
  obtain ⟨ys, rfl, hn, hy⟩ := hl
  have : ∃ xs : List String, (∀ x ∈ xs, IsName P x) ∧ ys = xs.map .str := by
    clear hn
    induction ys with
    | nil => exact ⟨[], by simp, rfl⟩
    | cons y ys ih =>
      obtain ⟨xs, h1, rfl⟩ := ih fun z m => hy z (by simp [m])
      obtain ⟨x, h2, rfl⟩ := hy y (by simp)
      exact ⟨x :: xs, by simpa using ⟨h2, h1⟩, rfl⟩
  obtain ⟨xs, h1, rfl⟩ := this
  exact ⟨xs, fun e => hn (by rw [e]; rfl), h1, rfl⟩

theorem y_simple (hx : ∀ x r v r', p .elem (.name x :: .sym .colon :: r) = some (v, r') → v = name x) : Yields P (pSimple p ts) (GS P) := by
  unfold pSimple
  split
  · exact .ret (fun _ => .pass) (by toks!)
  · exact .ret (fun _ => .break) (by toks!)
  · exact .ret (fun _ => .continue) (by toks!)
  · exact .ret (fun _ => .return .none) (by toks!)
  · exact (hp.y (nt := .expr) trivial (by toks!)).seq fun v r hv hr => .ret (fun h => .return (.some (hv (part% h, .value)))) hr
  · exact .ret (fun _ => .reraise) (by toks!)
  · exact (hp.y (nt := .expr) trivial (by toks!)).seq fun v r hv hr => y_raiseFrom hp hr hv
  · exact (hp.y (nt := .expr) trivial (by toks!)).seq fun v r hv hr => y_assertMsg hp hr hv
  · exact (hp.y (nt := .sep .delTarget) trivial (by toks!)).seq fun l r hl hr =>
      .ret (fun h => .delete hl.elts.1 fun t m => hl.elts.2 t m ((parts% h, .targets) t m)) hr
  · refine (hp.y (nt := .sep .ident) trivial (by toks!)).seq fun l r hl hr => .ret (fun _ => ?_) hr
    obtain ⟨xs, h1, h2, e⟩ := idents hl
    rw [e]
    exact .scope (.inl rfl) h1 h2
  · refine (hp.y (nt := .sep .ident) trivial (by toks!)).seq fun l r hl hr => .ret (fun _ => ?_) hr
    obtain ⟨xs, h1, h2, e⟩ := idents hl
    rw [e]
    exact .scope (.inr rfl) h1 h2
  · exact (hp.y (nt := .sep .importAs) trivial (by toks!)).seq fun l r hl hr => .ret (fun _ => .import hl.elts.1 hl.elts.2) hr
  · refine (hp.y (nt := .dots) trivial (by toks!)).seq fun v r hv hr => ?_
    obtain ⟨n, rfl⟩ := hv
    exact y_fromModule hp hr
  · intro w r e
    cases he : p .elem ts with
    | none => rw [he] at e; cases e
    | some q =>
      obtain ⟨v, r'⟩ := q
      rw [he] at e
      obtain ⟨hv, hr, -⟩ := hp .elem ts trivial ht v r' he
      exact y_simpleRest hp hr ht hv (fun x s h => by subst h; exact hx _ _ _ _ he) w r e

omit hp in
theorem y_line {Q : Val → Prop} {v : Val} (hv : Q v) : Yields P (line v ts) Q := by
  unfold line
  split
  · exact .ret hv (by toks!)
  · exact .none

/-! Blocks. -/

theorem y_block : Yields P (pBlock p ts) (LN (GS P)) := by
  unfold pBlock
  split
  · exact (hp.y (nt := .stmt) trivial (by toks!)).seq fun s r hs hr => (hp.y (nt := .stmts) trivial hr).seq fun l r hl hr =>
      .ret (LL.cons hs hl) hr
  · exact .none

theorem y_stmts : Yields P (pStmts p ts) (LL (GS P)) := by
  unfold pStmts
  split
  · exact .ret .nil (by toks!)
  · exact (hp.y (nt := .stmt) trivial ht).seq fun s r hs hr => (hp.y (nt := .stmts) trivial hr).seq fun l r hl hr =>
      .ret (LL.cons hs hl).ll hr

theorem y_file : Yields P (pFile p ts) (LL (GS P)) := by
  unfold pFile
  split
  · exact .ret .nil ht
  · exact (hp.y (nt := .stmt) trivial ht).seq fun s r hs hr => (hp.y (nt := .file) trivial hr).seq fun l r hl hr =>
      .ret (LL.cons hs hl).ll hr

theorem y_orelse : Yields P (pOrelse p ts) (LL (GS P)) := by
  unfold pOrelse
  split
  · exact (hp.y (nt := .block) trivial (by toks!)).mono fun _ => LN.ll
  · exact .ret .nil ht

theorem y_finals : Yields P (pFinals p ts) (LL (GS P)) := by
  unfold pFinals
  split
  · exact (hp.y (nt := .block) trivial (by toks!)).mono fun _ => LN.ll
  · exact .ret .nil ht

theorem y_elifs : Yields P (pElifs p ts) (LL (GS P)) := by
  unfold pElifs
  split
  · exact (hp.y (nt := .ifRest) trivial (by toks!)).seq fun v r hv hr => .ret (LN.one hv).ll hr
  · exact (hp.y (nt := .block) trivial (by toks!)).mono fun _ => LN.ll
  · exact .ret .nil ht

theorem y_ifRest : Yields P (pIfRest p ts) (GS P) := by
  refine (hp.y (nt := .expr) trivial ht).seq fun t r h1 hr => (hp.y (nt := .block) trivial hr).seq fun b r h2 hr =>
    (hp.y (nt := .elifs) trivial hr).seq fun e r h3 hr => .ret (fun h => ?_) hr
  exact .if (h1 (part% h, .test)) h2.elts.1 (fun s m => h2.elts.2 s m ((parts% h, .body) s m)) fun s m => h3.elts s m ((parts% h, .orelse) s m)

theorem y_whileRest : Yields P (whileRest p ts) (GS P) := by
  refine (hp.y (nt := .expr) trivial ht).seq fun t r h1 hr => (hp.y (nt := .block) trivial hr).seq fun b r h2 hr =>
    (hp.y (nt := .orelse) trivial hr).seq fun e r h3 hr => .ret (fun h => ?_) hr
  exact .while (h1 (part% h, .test)) h2.elts.1 (fun s m => h2.elts.2 s m ((parts% h, .body) s m)) fun s m => h3.elts s m ((parts% h, .orelse) s m)

theorem y_forIn {k : K} (hk : k = .For ∨ k = .AsyncFor) {t : Val} (h0 : Plain t → IsTarget P t) : Yields P (forIn p k t ts) (GS P) := by
  unfold forIn
  split
  · refine (hp.y (nt := .expr) trivial (by toks!)).seq fun i r h1 hr => (hp.y (nt := .block) trivial hr).seq fun b r h2 hr =>
      (hp.y (nt := .orelse) trivial hr).seq fun e r h3 hr => .ret (fun h => ?_) hr
    exact .for hk (h0 (part% h, .target)) (h1 (part% h, .iter)) h2.elts.1 (fun s m => h2.elts.2 s m ((parts% h, .body) s m))
      fun s m => h3.elts s m ((parts% h, .orelse) s m)
  · exact .none

/-! `with` -/

theorem y_withItem : Yields P (pWithItem p ts) (Out P .withItem) := by
  refine (hp.y (nt := .expr) trivial ht).seq fun a r ha hr => ?_
  unfold withAs
  split
  · exact (hp.y (nt := .target) trivial (by toks!)).seq fun t r h hr => .ret ⟨_, _, rfl, ha, .inr h⟩ hr
  · exact .ret ⟨_, _, rfl, ha, .inl rfl⟩ hr

omit hp ht in
theorem withItem_of {v : Val} (h : Out P .withItem v) (hv : Plain v) : WithItem P v := by
  obtain ⟨a, t, rfl, ha, ht⟩ := h
  refine ⟨a, t, ha (part% hv, .context_expr), ?_, rfl⟩
  rcases ht with h | h
  · exact .inl h
  · exact .inr (h (part% hv, .optional_vars))

omit hp ht in
theorem inParens_out {is xs : List Val} (hi : ∀ i ∈ is, Out P .withItem i) (e : inParens is = some xs) :
    ∀ x ∈ xs, (∀ y ∈ xs, Plain y) → WithItem P (withItemOf x .none) := by
  intro x hx hall
  unfold inParens at e
  split at e
  · rename_i loc y ys c
    split at e
    · cases e
    · rename_i hs
      cases e
      obtain ⟨a, t, e, ha, -⟩ := hi _ List.mem_cons_self
      cases e
      have hpl : Plain (.node (.py .Tuple) loc [(.elts, .list (y :: ys)), (.ctx, c)]) := ⟨id, .inr (plainL_of hall), .inl rfl, trivial⟩
      obtain ⟨zs, e, hz⟩ := (ha hpl).tupleInv rfl
      cases e
      refine ⟨x, .none, (hz x hx).unstarred ?_, .inl rfl, rfl⟩
      cases hst : isStarred x with
      | false => rfl
      | true => exact absurd (List.any_eq_true.2 ⟨x, hx, hst⟩) hs
  · cases e

omit hp ht in
theorem withItems_out {us : List Tok} {is : List Val} {k : K} {b : List Val} (hk : k = .With ∨ k = .AsyncWith)
    (hi : ∀ i ∈ is, Out P .withItem i) (hn : is ≠ [])
    (h : Plain (withOf k (withItems us is) b)) :
    (∀ i ∈ withItems us is, WithItem P i) ∧ withItems us is ≠ [] ∧ inParens (withItems us is) = none := by
  have hpl : ∀ i ∈ withItems us is, Plain i := parts% h, .items
  have ho : inParens (withItems us is) = none := by
    rcases hk with rfl | rfl
    · exact Classical.byContradiction fun hc => h.odd ⟨_, by simp, hc⟩
    · exact Classical.byContradiction fun hc => h.odd ⟨_, by simp, hc⟩
  have key : withItems us is = is ∨ ∃ xs, inParens is = some xs ∧ withItems us is = xs.map fun x => withItemOf x .none := by
    unfold withItems
    split
    · exact .inl rfl
    · rename_i xs e
      split
      · split
        · exact .inl rfl
        · exact .inr ⟨xs, e, rfl⟩
      · exact .inr ⟨xs, e, rfl⟩
  refine ⟨?_, ?_, ho⟩
  · rcases key with e | ⟨xs, e1, e⟩
    · rw [e] at hpl ⊢
      exact fun i m => withItem_of (hi i m) (hpl i m)
    · rw [e] at hpl ⊢
      intro i m
      obtain ⟨x, hx, rfl⟩ := List.mem_map.1 m
      refine inParens_out hi e1 x hx fun y hy => ?_
      have := hpl _ (List.mem_map.2 ⟨y, hy, rfl⟩)
      exact part% this, .context_expr
  · rcases key with e | ⟨xs, e1, e⟩
    · rw [e]; exact hn
    · rw [e]
      unfold inParens at e1
      split at e1
      · split at e1
        · cases e1
        · cases e1; simp
      · cases e1

theorem y_withRest {k : K} (hk : k = .With ∨ k = .AsyncWith) : Yields P (withRest p k ts) (GS P) := by
  refine (hp.y (nt := .sep .withItem) trivial ht).seq fun l r hl hr => (hp.y (nt := .block) trivial hr).seq fun b r hb hr =>
    .ret (fun h => ?_) hr
  obtain ⟨h1, h2, h3⟩ := withItems_out hk hl.elts.2 hl.elts.1 h
  exact .with hk h2 h1 h3 hb.elts.1 fun s m => hb.elts.2 s m ((parts% h, .body) s m)

/-! `try` -/

theorem y_handlerAs {star : Bool} {t : Val} (h0 : Ge P t) : Yields P (handlerAs p t ts) (fun h => Plain h → Handler P star h) := by
  unfold handlerAs
  split
  · exact (hp.y (nt := .block) trivial (by toks!)).seq fun b r hb hr => .ret (fun h =>
      .typed (h0 (part% h, .type_)) (.inr ⟨_, ht.tail.head, rfl⟩) hb.elts.1 fun s m => hb.elts.2 s m ((parts% h, .body) s m)) hr
  · exact (hp.y (nt := .block) trivial ht).seq fun b r hb hr => .ret (fun h =>
      .typed (h0 (part% h, .type_)) (.inl rfl) hb.elts.1 fun s m => hb.elts.2 s m ((parts% h, .body) s m)) hr

theorem y_handler (star : Bool) : Yields P (handler p star ts) (fun h => Plain h → Handler P star h) := by
  unfold handler
  split
  · split
    · exact (hp.y (nt := .expr) trivial (by toks!)).seq fun t r h0 hr => y_handlerAs hp hr h0
    · exact .none
  · split
    · exact .none
    · rename_i hs
      have hs : star = false := by simpa using hs
      subst hs
      exact (hp.y (nt := .block) trivial ht).seq fun b r hb hr => .ret (fun h =>
        .bare hb.elts.1 fun s m => hb.elts.2 s m ((parts% h, .body) s m)) hr
  · split
    · exact .none
    · exact (hp.y (nt := .expr) trivial ht).seq fun t r h0 hr => y_handlerAs hp hr h0

theorem y_handlers (star : Bool) : Yields P (pHandlers p star ts) (LL fun h => Plain h → Handler P star h) := by
  unfold pHandlers
  split
  · exact (y_handler hp (by toks!) star).seq fun h r hh hr => (hp.y (nt := .handlers star) trivial hr).seq fun l r hl hr =>
      .ret (LL.cons hh hl).ll hr
  · exact .ret .nil ht

theorem x_handlers {star : Bool} {v : Val} {r : List Tok} (h : pHandlers p star ts = some (v, r)) : v = .list [] → isStar ts = false := by
  intro e
  unfold pHandlers at h
  split at h
  · have := ((y_handler hp ht.tail star).seq fun h r hh hr => (hp.y (nt := .handlers star) trivial hr).seq fun l r hl hr =>
      (.ret (LL.cons hh hl) hr : Yields P _ (LN fun h => Plain h → Handler P star h))) v r h
    obtain ⟨⟨xs, rfl, hn, -⟩, -⟩ := this
    cases e
    exact absurd rfl hn
  · rename_i hne
    unfold isStar
    split
    · exact absurd rfl (hne _)
    · rfl

theorem y_tryRest : Yields P (tryRest p ts) (GS P) := by
  refine (hp.y (nt := .block) trivial ht).seq fun b r hb hr => ?_
  intro v r' h
  cases e : p (.handlers (isStar r)) r with
  | none => rw [e] at h; cases h
  | some q =>
    obtain ⟨hs, r1⟩ := q
    rw [e] at h
    obtain ⟨⟨xs, rfl, hx⟩, hr1, hex⟩ := hp (.handlers (isStar r)) r trivial hr _ _ e
    have h : tryEnd p (isStar r) (Val.elts b) xs r1 = some (v, r') := h
    refine (?_ : Yields P (tryEnd p (isStar r) (Val.elts b) xs r1) (GS P)) v r' h
    unfold tryEnd
    split
    · rename_i he
      have he : xs = [] := by simpa using he
      subst he
      rw [hex rfl]
      split
      · exact (hp.y (nt := .block) trivial (by toks!)).seq fun f r hf hr => .ret (fun h =>
          .tryFinally hb.elts.1 (fun s m => hb.elts.2 s m ((parts% h, .body) s m)) hf.elts.1 fun s m => hf.elts.2 s m ((parts% h, .finalbody) s m)) hr
      · exact .none
    · rename_i he
      refine (hp.y (nt := .orelse) trivial hr1).seq fun e r h1 hr => (hp.y (nt := .finals) trivial hr).seq fun f r h2 hr => .ret (fun h => ?_) hr
      exact .try hb.elts.1 (fun s m => hb.elts.2 s m ((parts% h, .body) s m)) (by simpa using he)
        (fun s m => hx s m ((parts% h, .handlers) s m)) (fun s m => h1.elts s m ((parts% h, .orelse) s m))
        fun s m => h2.elts s m ((parts% h, .finalbody) s m)

/-! Definitions. -/

theorem y_decos : Yields P (pDecos p ts) (LL (Ge P)) := by
  unfold pDecos
  split
  · refine (hp.y (nt := .expr) trivial (by toks!)).seq fun d r hd hr => ?_
    unfold decoRest
    split
    · exact (hp.y (nt := .decos) trivial (by toks!)).seq fun l r hl hr => .ret (LL.cons hd hl).ll hr
    · exact .none
  · exact .ret .nil ht

theorem y_returns : Yields P (returns p ts) (GO P) := by
  unfold returns
  split
  · exact (hp.y (nt := .expr) trivial (by toks!)).mono fun v hv h => .some (hv h)
  · exact .ret (fun _ => .none) ht

theorem y_functionRest {k : K} (hk : k = .FunctionDef ∨ k = .AsyncFunctionDef) {ds : List Val} (hd : ∀ d ∈ ds, Ge P d) :
    Yields P (functionRest p k ds ts) (GS P) := by
  unfold functionRest
  split
  · refine (hp.y (nt := .params true .rpar) trivial (by toks!)).seq fun a r h1 hr => (y_returns hp hr).seq fun t r h2 hr =>
      (hp.y (nt := .block) trivial hr).seq fun b r hb hr => .ret (fun h => ?_) hr
    exact .function hk ht.head (h1 (part% h, .args)).1 hb.elts.1 (fun s m => hb.elts.2 s m ((parts% h, .body) s m))
      (fun d m => hd d m ((parts% h, .decorator_list) d m)) (h2 (part% h, .returns))
  · exact .none

theorem y_classBody {x : String} (hx : IsName P x) {ds : List Val} (hd : ∀ d ∈ ds, Ge P d) {l : Val} (hl : LL (Out P .arg) l) :
    Yields P (classBody p x ds l ts) (GS P) := by
  unfold classBody
  split
  · rename_i as ks e
    obtain ⟨h1, h2⟩ := args_ok (LL.elts hl) e
    refine (hp.y (nt := .block) trivial ht).seq fun b r hb hr => .ret (fun h => ?_) hr
    exact .class hx (fun a m => h1 a m ((parts% h, .bases) a m)) (fun a m => h2 a m ((parts% h, .keywords) a m)) hb.elts.1
      (fun s m => hb.elts.2 s m ((parts% h, .body) s m)) fun d m => hd d m ((parts% h, .decorator_list) d m)
  · exact .none

theorem y_classRest {ds : List Val} (hd : ∀ d ∈ ds, Ge P d) : Yields P (classRest p ds ts) (GS P) := by
  unfold classRest
  split
  · exact (hp.y (nt := .items .arg .rpar) trivial (by toks!)).seq fun l r hl hr => y_classBody hp hr ht.head hd hl
  · exact y_classBody hp (by toks!) ht.head hd .nil
  · exact .none

theorem y_definition {ds : List Val} (hd : ∀ d ∈ ds, Ge P d) : Yields P (definition p ds ts) (GS P) := by
  unfold definition
  split
  · exact y_functionRest hp (by toks!) (.inl rfl) hd
  · exact y_functionRest hp (by toks!) (.inr rfl) hd
  · exact y_classRest hp (by toks!) hd
  · exact .none

/-! `type` and `match` -/

theorem y_typeParam : Yields P (pTypeParam p ts) (fun v => Plain v → TypeParam P v) := by
  unfold pTypeParam
  split
  · exact .ret (fun _ => .inr ⟨_, _, .inl rfl, ht.tail.head, rfl⟩) (by toks!)
  · exact .ret (fun _ => .inr ⟨_, _, .inr rfl, ht.tail.head, rfl⟩) (by toks!)
  · exact (hp.y (nt := .expr) trivial (by toks!)).seq fun b r hb hr =>
      .ret (fun h => .inl ⟨_, _, ht.head, .some (hb (part% h, .bound)), rfl⟩) hr
  · exact .ret (fun _ => .inl ⟨_, _, ht.head, .none, rfl⟩) (by toks!)
  · exact .none

theorem y_typeValue {x : String} (hx : IsName P x) {ps : List Val} (h1 : ∀ q ∈ ps, Plain q → TypeParam P q) :
    Yields P (typeValue p x ps ts) (GS P) := by
  unfold typeValue
  split
  · exact (hp.y (nt := .expr) trivial (by toks!)).seq fun v r hv hr => y_line hr (fun h =>
      .typeAlias hx (fun q m => h1 q m ((parts% h, .type_params) q m)) (hv (part% h, .value)))
  · exact .none

theorem y_typeRest {x : String} (hx : IsName P x) : Yields P (typeRest p x ts) (GS P) := by
  unfold typeRest
  split
  · exact .none
  · exact (hp.y (nt := .items .typeParam .rbrack) trivial (by toks!)).seq fun l r hl hr => y_typeValue hp hr hx (LL.elts hl)
  · exact y_typeValue hp ht hx (by simp)

theorem y_caseRest : Yields P (caseRest p ts) (fun c => Plain c → Case P c) := by
  refine (hp.y (nt := .pattern) trivial ht).seq fun a r ha hr => ?_
  have hg : Yields P (guard p r) (GO P) := by
    unfold guard
    split
    · exact (hp.y (nt := .expr) trivial (by toks!)).mono fun v hv h => .some (hv h)
    · exact .ret (fun _ => .none) hr
  refine hg.seq fun g r hg hr => (hp.y (nt := .block) trivial hr).seq fun b r hb hr => .ret (fun h => ?_) hr
  exact .case (ha.2 (part% h, .pattern)) (hg (part% h, .guard)) hb.elts.1 fun s m => hb.elts.2 s m ((parts% h, .body) s m)

theorem y_cases : Yields P (pCases p ts) (LL fun c => Plain c → Case P c) := by
  unfold pCases
  split
  · exact .ret .nil (by toks!)
  · split
    · exact (y_caseRest hp (by toks!)).seq fun c r hc hr => (hp.y (nt := .cases) trivial hr).seq fun l r hl hr => .ret (LL.cons hc hl).ll hr
    · exact .none
  · exact .none

theorem x_cases {v : Val} {r : List Tok} (h : pCases p ts = some (v, r)) : v = .list [] → ts.head? = some .dedent := by
  intro e
  unfold pCases at h
  split at h
  · rfl
  · split at h
    · have := ((y_caseRest hp ht.tail).seq fun c r hc hr => (hp.y (nt := .cases) trivial hr).seq fun l r hl hr =>
        (.ret (LL.cons hc hl) hr : Yields P _ (LN fun c => Plain c → Case P c))) v r h
      obtain ⟨⟨xs, rfl, hn, -⟩, -⟩ := this
      cases e
      exact absurd rfl hn
    · cases h
  · cases h

theorem y_matchRest : Yields P (matchRest p ts) (GS P) := by
  refine (hp.y (nt := .expr) trivial ht).seq fun a r ha hr => ?_
  unfold matchCases
  split
  · rename_i x r
    intro v r' h
    cases e : p .cases (.name x :: r) with
    | none => rw [e] at h; cases h
    | some q =>
      obtain ⟨cs, r1⟩ := q
      rw [e] at h
      obtain ⟨⟨xs, rfl, hx⟩, hr1, hex⟩ := hp .cases _ trivial (hr.tail.tail.tail) _ _ e
      cases h
      refine ⟨fun h => .match (ha (part% h, .subject)) (fun e => ?_) fun c m => hx c m ((parts% h, .cases) c m), hr1⟩
      have e : xs = [] := e
      have := hex (by rw [e])
      cases this
  · exact .none

theorem y_nameLine {x : String} (hx : IsName P x) : Yields P (nameLine p x ts) (GS P) := by
  unfold nameLine
  split
  · exact y_matchRest hp ht
  · split
    · split
      · exact y_typeRest hp (by toks!) ht.head
      · exact .none
    · refine (hp.y (nt := .simple) trivial ?_).seq fun v r hv hr => y_line hr hv
      intro t m
      rcases List.mem_cons.1 m with rfl | m
      · exact hx
      · exact ht t m

theorem y_stmt : Yields P (pStmt p ts) (GS P) := by
  unfold pStmt
  split
  · exact hp.y (nt := .ifRest) trivial (by toks!)
  · exact y_whileRest hp (by toks!)
  · exact (hp.y (nt := .target) trivial (by toks!)).seq fun t r h hr => y_forIn hp hr (.inl rfl) h
  · exact (hp.y (nt := .target) trivial (by toks!)).seq fun t r h hr => y_forIn hp hr (.inr rfl) h
  · exact y_withRest hp (by toks!) (.inl rfl)
  · exact y_withRest hp (by toks!) (.inr rfl)
  · exact y_tryRest hp (by toks!)
  · exact (hp.y (nt := .decos) trivial ht).seq fun ds r h hr => y_definition hp hr (LL.elts h)
  · exact y_definition hp ht (by simp)
  · exact y_definition hp ht (by simp)
  · exact y_definition hp ht (by simp)
  · exact y_nameLine hp (by toks!) ht.head
  · exact (hp.y (nt := .simple) trivial ht).seq fun v r hv hr => y_line hr hv

end

end Mcpyrate.PyText
