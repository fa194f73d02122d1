import Verif.Lemmas.StmtMatch
/-
Every statement of Spec/StmtTree.lean is written so that it is read back; and the text as a whole.
-/
namespace Mcpyrate.PyText
open Py
open Unparse (Host Large Ctx lit unparse dispatch)

variable {P : Reading} {H : Host}

theorem IsTarget.ok (hP : P.Lawful) {t} (h : IsTarget P t) : Target P H t := by
  obtain ⟨w, hw, h⟩ := h; exact ⟨w, h, Item.elem hP hw⟩

theorem StarArg.ok (hP : P.Lawful) {v : Val} (h : StarArg P v) : StarOK P H true v := by
  rcases h with rfl | ⟨x, a, hx, ha, rfl⟩
  · exact .inl rfl
  · exact .inr ⟨x, a, rfl, hx, (Opt.ok hP ha).imp id fun h => ⟨rfl, h⟩⟩

theorem ArgsArg.ok (hP : P.Lawful) {v : Val} (h : ArgsArg P v) : ArgsOK P H true v := by
  rcases h with rfl | ⟨x, a, hx, ha, rfl⟩
  · exact .inl rfl
  · exact .inr ⟨x, a, rfl, hx, ha.imp id fun h => ⟨rfl, Item.elem hP h⟩⟩

theorem Stmt.isMk {v} (h : Stmt P v) : ∃ k fs, v = mk k fs := by
  cases h <;> exact ⟨_, _, rfl⟩

theorem other {v} (hv : v.isK .If = false) (h : S P H v) : S P H v ∧ ∀ fs, v = mk .If fs → IfGood P H v fs :=
  ⟨h, by rintro fs rfl; exact nomatch hv⟩

theorem ifGood (hP : P.Lawful) {t : Val} {b e : List Val} (ht : G P H t) (hn : b ≠ []) (hb : ∀ s ∈ b, S P H s)
    (hm : ∀ s ∈ e, ∃ k fs, s = mk k fs) (he : ∀ s ∈ e, S P H s ∧ ∀ fs, s = mk .If fs → IfGood P H s fs) :
    IfGood P H (ifOf t b e) [(.test, t), (.body, .list b), (.orelse, .list e)] := by
  by_cases h : ∃ m gs, e = [.node (.py .If) m gs]
  · obtain ⟨m, gs, rfl⟩ := h
    obtain ⟨k, fs, e⟩ := hm _ (List.mem_singleton.2 rfl)
    rw [e] at he ⊢
    cases e
    exact ifGood_elif hP ht hn hb ((he _ (by simp)).2 _ rfl)
  · exact ifGood_else hP ht hn hb (fun s hs => (he s hs).1) fun m gs e => h ⟨m, gs, e⟩

mutual
theorem Stmt.ok (hP : P.Lawful) : ∀ {v : Val}, Stmt P v → S P H v ∧ ∀ fs, v = mk .If fs → IfGood P H v fs
  | _, .expr h => other rfl (s_expr hP (h.good hP))
  | _, .pass => other rfl (s_pass hP)
  | _, .break => other rfl (s_break hP)
  | _, .continue => other rfl (s_continue hP)
  | _, .return h => other rfl (s_return hP (Opt.ok hP h))
  | _, .delete hn h => other rfl (s_del hP hn fun t ht => by obtain ⟨w, hw, e⟩ := h t ht; exact ⟨w, hw.good hP, e⟩)
  | _, .assign hn ht h => other rfl (s_assign hP hn (fun t m => (ht t m).ok hP) (h.good hP))
  | _, .augAssign hk ht h => by
    obtain ⟨w, hw, e⟩ := ht
    exact other rfl (s_augAssign hP hk (hw.good hP) e (h.good hP))
  | _, .annName hx h hv => other rfl (s_annName hP hx (h.good hP) (Opt.ok hP hv))
  | _, .annOther ht h hv => by
    obtain ⟨w, hw, e⟩ := ht
    exact other rfl (s_annOther hP (hw.good hP) e (h.good hP) (Opt.ok hP hv))
  | _, .import hn h => other rfl (s_import hP hn h)
  | _, .importFrom hm h => other rfl (s_importFrom hP hm h)
  | _, .scope hk hn h => other (by rcases hk with rfl | rfl <;> rfl) (s_scope hP hk hn h)
  | _, .assert ha hb => other rfl (s_assert hP (ha.good hP) (Opt.ok hP hb))
  | _, .reraise => other rfl (s_reraise hP)
  | _, .raise ha hb => other rfl (s_raise hP (ha.good hP) (Opt.ok hP hb))
  | _, .if ht hn hb he => by
    have h := ifGood hP (Expr.good (H := H) hP ht) hn (fun s m => (Stmt.ok hP (hb s m)).1) (fun s m => (he s m).isMk) fun s m => Stmt.ok hP (he s m)
    exact ⟨h.s hP, by intro fs e; cases e; exact h⟩
  | _, .while ht hn hb he => other rfl (s_while hP (ht.good hP) hn (fun s m => (Stmt.ok hP (hb s m)).1) fun s m => (Stmt.ok hP (he s m)).1)
  | _, .for hk ht hi hn hb he => other (by rcases hk with rfl | rfl <;> rfl)
    (s_for hP hk (ht.ok hP) (hi.good hP) hn (fun s m => (Stmt.ok hP (hb s m)).1) fun s m => (Stmt.ok hP (he s m)).1)
  | _, .with hk hi hw ht hn hb => other (by rcases hk with rfl | rfl <;> rfl) (s_with hP hk hi (fun i m => by
      obtain ⟨a, t, ha, ht, e⟩ := hw i m
      exact ⟨a, t, ha.good hP, ht.imp id fun h => h.ok hP, e⟩) ht hn fun s m => (Stmt.ok hP (hb s m)).1)
  | _, .tryFinally hn hb hn' hf => other rfl (s_try hP hn (fun s m => (Stmt.ok hP (hb s m)).1) (by simp) (by simp)
      (fun s m => (Stmt.ok hP (hf s m)).1) (.inr ⟨rfl, rfl, hn'⟩))
  | _, .try (star := star) hn hb hn' hh he hf => other (by cases star <;> rfl) (s_try hP hn (fun s m => (Stmt.ok hP (hb s m)).1)
      (fun h m => Handler.ok hP (hh h m)) (fun s m => (Stmt.ok hP (he s m)).1) (fun s m => (Stmt.ok hP (hf s m)).1) (.inl hn'))
  | _, .function hk hx ha hn hb hd hr => by
    obtain ⟨ps, as, ks, v, w, ds, hp, hv, hw, hdf, rfl⟩ := ha
    have hp : ∀ p ∈ ps ++ as ++ ks, p.OK P H true := fun p m =>
      ⟨(hp p m).1, (Opt.ok hP (hp p m).2.1).imp id fun h => ⟨rfl, h⟩, Opt.ok hP (hp p m).2.2⟩
    rw [argumentsTree_eq]
    exact other (by rcases hk with rfl | rfl <;> rfl) (s_function hP hk hx (fun p m => hp p (by simp [m])) (fun p m => hp p (by simp [m]))
      (fun p m => hp p (by simp [m])) (hv.ok hP) (hw.ok hP) hdf hn (fun s m => (Stmt.ok hP (hb s m)).1) (fun d m => (hd d m).good hP) (Opt.ok hP hr))
  | _, .class hx ha hk hn hb hd => other rfl (s_class hP hx (fun a m => Item.elem hP (ha a m)) (fun k m => Keyword.ok hP (hk k m)) hn
      (fun s m => (Stmt.ok hP (hb s m)).1) fun d m => (hd d m).good hP)
  | _, .match ha hn hc => other rfl (s_match hP (ha.good hP) hn fun c m => Case.ok hP (hc c m))
  | _, .typeAlias hx hp ha => other rfl (s_typeAlias hP hx (fun p m => by
      rcases hp p m with ⟨x, b, hx, hb, rfl⟩ | ⟨k, x, hk, hx, rfl⟩
      · exact typeVar_item hP hx (Opt.ok hP hb)
      · exact typeStar_item hP hk hx) (ha.good hP))
theorem Handler.ok (hP : P.Lawful) : ∀ {star : Bool} {v : Val}, Handler P star v → HandlerGood P H star v
  | _, _, .typed ht hx hn hb => handler_typed hP (ht.good hP) hx hn fun s m => (Stmt.ok hP (hb s m)).1
  | _, _, .bare hn hb => handler_bare hP hn fun s m => (Stmt.ok hP (hb s m)).1
theorem Case.ok (hP : P.Lawful) : ∀ {v : Val}, Case P v → CaseGood P H v
  | _, .case hp hg hn hb => case_ok hP hp (Opt.ok hP hg) hn fun s m => (Stmt.ok hP (hb s m)).1
end

/-! ### The text as a whole -/

theorem strip_block {s pre : Str} (hp : pre = [] ∨ pre = ['\n']) (hs : ∃ c w, s = c :: w ∧ Dialects.isSpace c = false)
    (he : ∃ w c, s = w ++ [c] ∧ Dialects.isSpace c = false) : Dialects.strip (pre ++ '\n' :: s ++ lit "\n") = s := by
  have := strip_line hs he
  unfold Dialects.strip at this ⊢
  rcases hp with rfl | rfl
  · exact this
  · exact this

theorem stack_length : ∀ d, (stack d).length = d
  | 0 => rfl
  | d + 1 => by simp [stack, stack_length d]

theorem lex_end (d : Nat) : lex P (.line 0) (stack d) [] = some (closing d []) := by
  rw [lex]
  simp [closing, List.map_const', stack_length]

theorem GoodB.isModule {vs pre core toks d} (h : GoodB P H vs pre core toks d) : IsModule P (core 0) vs := by
  have hp := h.parses .file [] [] [] (.inr rfl) NoClause.nil (by rw [full_at]; rfl)
  rw [List.append_nil] at hp
  obtain ⟨n, hn⟩ := full_iff.1 hp
  refine ⟨_, n, ?_, hn⟩
  have hl := h.lines 0 [] _ (.inl rfl) (by rw [Nat.zero_add]; exact lex_end d)
  obtain ⟨c, r, e, hc⟩ := h.starts 0
  rw [List.append_nil] at hl
  rw [e] at hl ⊢
  unfold tokens
  rw [lex_start (noSpace_ne hc).1 (noSpace_ne hc).2]
  exact hl

/-- The text of statements. -/
theorem GoodB.strips {vs pre core toks d} (h : GoodB P H vs pre core toks d) :
    Large fun n => ∃ s, Unparse.concat (dispatch H n {}) vs = .ok s ∧ Dialects.strip (s ++ lit "\n") = core 0 :=
  h.prints.mono fun _ hn => ⟨_, hn {}, strip_block h.pre (h.starts 0) (h.finishes 0)⟩

theorem statements_text (hP : P.Lawful) {vs : List Val} (h : ∀ v ∈ vs, Stmt P v) : ∃ text, IsModule P text vs ∧
    Large fun n => ∃ s, Unparse.concat (dispatch H n {}) vs = .ok s ∧ Dialects.strip (s ++ lit "\n") = text := by
  cases vs with
  | nil => exact ⟨[], ⟨[], 1, rfl, rfl⟩, Large.all fun _ => ⟨[], rfl, by decide⟩⟩
  | cons v vs =>
    obtain ⟨pre, core, toks, d, g⟩ := stmts_good (H := H) (by simp) fun x hx => ((h x hx).ok hP).1
    exact ⟨_, g.isModule, g.strips⟩

/-- A single statement. -/
theorem statement_text (hP : P.Lawful) {v : Val} (h : Stmt P v) : ∃ text, IsModule P text [v] ∧ ∃ N, ∀ n, N ≤ n → unparse H n v = .ok text := by
  obtain ⟨pre, core, toks, d, g⟩ := (h.ok (H := H) hP).1
  refine ⟨_, g.one.isModule, ?_⟩
  obtain ⟨N, hN⟩ := g.prints
  refine ⟨N, fun n hn => ?_⟩
  obtain ⟨k, fs, rfl⟩ := h.isMk
  unfold unparse
  rw [show Unparse.dispatchAny (dispatch H n) {} (mk k fs) = dispatch H n {} (mk k fs) from rfl, hN n hn {}]
  show Except.ok _ = _
  exact congrArg _ (strip_block g.pre (g.starts 0) (g.finishes 0))

end Mcpyrate.PyText
