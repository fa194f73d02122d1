import Verif.Lemmas.Quasiquote
import Verif.Lemmas.QuoteCode
/-
What quoted code stands for, after its unquotes have been replaced by commands, is a template (C58).
-/
namespace Mcpyrate.Quotes
open Py Expander

variable {E : Option (String → Option Obj)}

theorem ofVal_isK (k : K) (v : Val) : (Obj.ofVal v).isK k = v.isK k := by
  cases v with
  | const | list => rfl
  | node c l fs => cases c <;> rfl

theorem ofFields_lookup (f : F) : ∀ (fs : Fields), (Obj.ofFields fs).lookup f = (fs.lookup f).map Obj.ofVal
  | [] => rfl
  | (g, v) :: r => by
    rw [Obj.ofFields, List.lookup_cons, List.lookup_cons]
    cases f == g with
    | true => rfl
    | false => exact ofFields_lookup f r

theorem ofVal_get (f : F) (v : Val) : (Obj.ofVal v).get? f = (v.get? f).map Obj.ofVal := by
  cases v with
  | const | list => rfl
  | node c l fs => exact ofFields_lookup f fs

theorem ofFields_names : ∀ (fs : Fields), (Obj.ofFields fs).map (·.1) = fs.map (·.1)
  | [] => rfl
  | (g, v) :: r => by simp [Obj.ofFields, ofFields_names r]

/-- An expression that is not the name of a macro. -/
def NotMacro (E : Option (String → Option Obj)) (e : Val) : Prop :=
  ∀ f s, E = some f → e.isK .Name = true → e.get? .id = some (.str s) → f s = none

theorem captured_iff {e : Val} : (captured E (.ofVal e)).isNone = true ↔ NotMacro E e := by
  unfold captured NotMacro
  cases E with
  | none => simp
  | some f =>
    dsimp only
    rw [ofVal_isK, ofVal_get]
    by_cases hk : e.isK .Name = true
    · rw [if_pos hk]
      constructor
      · intro h g s hg _ hs
        cases hg
        rw [hs] at h
        simpa [Obj.ofVal] using h
      · intro h
        split
        · rename_i n hn
          have : e.get? .id = some (.str n) := by
            cases hv : e.get? .id with
            | none => rw [hv] at hn; cases hn
            | some v =>
              rw [hv] at hn
              cases v with
              | const c => cases hn; rfl
              | list => cases hn
              | node => cases hn
          rw [h f n rfl hk this]
          rfl
        · rfl
    · rw [if_neg hk]
      exact ⟨fun _ _ _ _ h => absurd h hk, fun _ => rfl⟩

theorem NotMacro.like {e e' : Val} (hn : NotMacro E e) (h : Like e e') : NotMacro E e' := by
  intro f s hf hk hs
  obtain ⟨v, h1, h2⟩ := h.get' (by decide) hs
  cases h2.const_inv'
  exact hn f s hf (by rw [← h.isK]; exact hk) h1

/-- The commands, as trees. -/
inductive Command (E : Option (String → Option Obj)) : String → Fields → Prop
  | one {n e} (hn : n = "Unquote" ∨ n = "ASTList" ∨ n = "ASTTuple") (he : e.isK .Starred = false) : Command E n [(.body, e)]
  | source {e c} (he : e.isK .Starred = false) : Command E "LiftSourcecode" [(.body, e), (.filename, .const c)]
  | literal {e c} (he : e.isK .Starred = false) : Command E "ASTLiteral" [(.body, e), (.syntax_, .const c)]
  | capture {e c} (he : e.isK .Starred = false) (hm : NotMacro E e) : Command E "Capture" [(.body, e), (.name, .const c)]

theorem Command.template {n : String} {l : Loc} {fs : Fields} (h : Command E n fs) :
    template E (.ofVal (.node (.marker n) l fs)) = true := by
  cases h with
  | one hn he =>
    rcases hn with rfl | rfl | rfl <;> simp [Obj.ofVal, Obj.ofFields, Quotes.template, ofVal_isK, he]
  | source he => simp [Obj.ofVal, Obj.ofFields, Quotes.template, ofVal_isK, he]
  | literal he => simp [Obj.ofVal, Obj.ofFields, Quotes.template, ofVal_isK, he]
  | capture he hm =>
    have := captured_iff.2 hm
    simp [Obj.ofVal, Obj.ofFields, Quotes.template, ofVal_isK, he] at this ⊢
    exact this

theorem ofVal_const {x : Val} {c : Const} (h : Obj.ofVal x = .const c) : x = .const c := by
  cases x with
  | const => cases h; rfl
  | list => cases h
  | node => cases h

theorem template_command {n : String} {l : Loc} {fs : Fields} (hn : n ≠ "Done")
    (h : template E (.ofVal (.node (.marker n) l fs)) = true) : Command E n fs := by
  rw [Obj.ofVal, template.eq_def] at h
  dsimp only at h
  rw [if_neg hn] at h
  match fs with
  | [] => cases h
  | [(f, e)] =>
    simp only [Obj.ofFields] at h
    split at h
    · rename_i e' he'
      cases he'
      simp only [Bool.and_eq_true, Bool.or_eq_true, decide_eq_true_eq, ofVal_isK, Bool.not_eq_true', or_assoc] at h
      exact .one h.1 h.2
    · rename_i he'; cases he'
    · rename_i he'; cases he'
    · rename_i he'; cases he'
    · cases h
  | [(f, e), (g, x)] =>
    simp only [Obj.ofFields] at h
    split at h
    · rename_i he'; cases he'
    · rename_i e' c he'
      simp only [List.cons.injEq, Prod.mk.injEq, and_true] at he'
      obtain ⟨⟨rfl, rfl⟩, rfl, h2⟩ := he'
      simp only [Bool.and_eq_true, decide_eq_true_eq, ofVal_isK, Bool.not_eq_true'] at h
      obtain ⟨rfl, h3⟩ := h
      rw [ofVal_const h2]
      exact .source h3
    · rename_i e' c he'
      simp only [List.cons.injEq, Prod.mk.injEq, and_true] at he'
      obtain ⟨⟨rfl, rfl⟩, rfl, h2⟩ := he'
      simp only [Bool.and_eq_true, decide_eq_true_eq, ofVal_isK, Bool.not_eq_true'] at h
      obtain ⟨rfl, h3⟩ := h
      rw [ofVal_const h2]
      exact .literal h3
    · rename_i e' c he'
      simp only [List.cons.injEq, Prod.mk.injEq, and_true] at he'
      obtain ⟨⟨rfl, rfl⟩, rfl, h2⟩ := he'
      simp only [Bool.and_eq_true, decide_eq_true_eq, ofVal_isK, Bool.not_eq_true'] at h
      obtain ⟨⟨rfl, h3⟩, h4⟩ := h
      rw [ofVal_const h2]
      exact .capture h3 (captured_iff.1 h4)
    · cases h
  | (f, e) :: (g, x) :: (f', e') :: r =>
    simp only [Obj.ofFields] at h
    split at h
    · rename_i he'; simp at he'
    · rename_i he'; simp at he'
    · rename_i he'; simp at he'
    · rename_i he'; simp at he'
    · cases h

theorem LikeF_marker {n : String} {fs fs' : Fields} (h : LikeF (.marker n) fs fs') (hc : Command E n fs) : Command E n fs' := by
  cases hc with
  | one hn he =>
    cases h with
    | field hv hr =>
      cases hr with
      | nil => exact .one hn (by rw [hv.isK]; exact he)
      | extra hk => cases hk
  | source he =>
    cases h with
    | field hv hr =>
      cases hr with
      | field hu hr =>
        cases hr with
        | nil => rw [hu.const_inv]; exact .source (by rw [hv.isK]; exact he)
        | extra hk => cases hk
  | literal he =>
    cases h with
    | field hv hr =>
      cases hr with
      | field hu hr =>
        cases hr with
        | nil => rw [hu.const_inv]; exact .literal (by rw [hv.isK]; exact he)
        | extra hk => cases hk
  | capture he hm =>
    cases h with
    | field hv hr =>
      cases hr with
      | field hu hr =>
        cases hr with
        | nil => rw [hu.const_inv]; exact .capture (by rw [hv.isK]; exact he) (hm.like hv)
        | extra hk => cases hk

theorem ctx_last : ∀ k : K, k.hasCtx = true → k.fields.dropLast ++ [.ctx] = k.fields ∧ k.fields.dropLast.contains .ctx = false ∧
    k.isOptional .ctx = false := by
  intro k
  cases k <;> first | (intro h; cases h; done) | (intro _; decide)

theorem sublist_snoc {l : List F} {p : List F} (h : l.Sublist (p ++ [.ctx])) (hl : F.ctx ∉ l) : l.Sublist p := by
  rw [List.sublist_append_iff] at h
  obtain ⟨l1, l2, rfl, h1, h2⟩ := h
  cases l2 with
  | nil => simpa using h1
  | cons a r =>
    have : a ∈ [F.ctx] := h2.subset (by simp)
    simp at this
    subst this
    exact absurd (by simp) hl

theorem LikeF_names {c : Cls} {fs fs' : Fields} (h : LikeF c fs fs') :
    fs'.map (·.1) = fs.map (·.1) ∨ (c.hasCtx = true ∧ fs'.map (·.1) = fs.map (·.1) ++ [.ctx]) := by
  match h with
  | .nil => exact .inl rfl
  | .extra hc _ => exact .inr ⟨hc, rfl⟩
  | .field _ hr => exact (LikeF_names hr).imp (fun h => by simp [h]) fun h => ⟨h.1, by simp [h.2]⟩
  | .ctx _ _ hr => exact (LikeF_names hr).imp (fun h => by simp [h]) fun h => ⟨h.1, by simp [h.2]⟩

theorem shaped_like {k : K} {fs fs' : Fields} (h : LikeF (.py k) fs fs')
    (hc : F.ctx ∈ fs.map (·.1) → fs'.length = fs.length) (hs : shaped k (Obj.ofFields fs) = true) :
    shaped k (Obj.ofFields fs') = true := by
  unfold shaped at hs ⊢
  rw [ofFields_names] at hs ⊢
  rcases LikeF_names h with e | ⟨hk, e⟩
  · rw [e]; exact hs
  · have hm : F.ctx ∉ fs.map (·.1) := by
      intro hm
      have h1 := hc hm
      have h2 := congrArg List.length e
      simp at h2
      omega
    obtain ⟨h1, h2, h3⟩ := ctx_last k hk
    simp only [Bool.and_eq_true, List.isSublist_iff_sublist, List.all_eq_true] at hs ⊢
    rw [e]
    refine ⟨?_, fun f hf => ?_⟩
    · have := hs.1
      rw [← h1] at this ⊢
      exact (sublist_snoc this hm).append (List.Sublist.refl _)
    · have := hs.2 f hf
      simp only [Bool.or_eq_true] at this ⊢
      exact this.imp id fun h => by simp only [List.contains_eq_mem, List.mem_append, decide_eq_true_eq] at h ⊢; exact .inl h

theorem isCtx_template {s : K} (h : FixCtx.IsCtx s) : template E (.ofVal (mk s [])) = true := by
  rcases h with rfl | rfl | rfl <;> rfl

theorem templateL_mem {xs : List Val} : templateL E (Obj.ofVals xs) = true ↔ ∀ x ∈ xs, template E (.ofVal x) = true := by
  induction xs with
  | nil => simp [Obj.ofVals, templateL]
  | cons x xs ih => simp [Obj.ofVals, templateL, ih]

mutual
theorem template_like {t u : Val} (h : Like t u) (ht : template E (.ofVal t) = true) : template E (.ofVal u) = true := by
  match h with
  | .const c => exact ht
  | .list h =>
    simp only [Obj.ofVal, template] at ht ⊢
    exact templateL_like h ht
  | .node (c := c) (fs := fs) (fs' := fs') h hc =>
    cases c with
    | py k =>
      simp only [Obj.ofVal, template, Bool.and_eq_true] at ht ⊢
      exact ⟨shaped_like h hc ht.1, templateF_like h ht.2⟩
    | marker n =>
      have hnames : fs'.map (·.1) = fs.map (·.1) := by
        rcases LikeF_names h with e | ⟨hk, e⟩
        · exact e
        · cases hk
      by_cases hn : n = "Done"
      · subst hn
        simp only [Obj.ofVal, template, if_true, Bool.and_eq_true] at ht ⊢
        rw [ofFields_names] at ht ⊢
        rw [hnames]
        exact ⟨ht.1, templateF_like h ht.2⟩
      · exact (LikeF_marker h (template_command hn ht)).template
theorem templateF_like {c : Cls} {fs fs' : Fields} (h : LikeF c fs fs') (ht : templateF E (Obj.ofFields fs) = true) :
    templateF E (Obj.ofFields fs') = true := by
  match h with
  | .nil => exact ht
  | .extra _ hs => simp only [Obj.ofFields, templateF, isCtx_template hs, Bool.and_self]
  | .field hv hr =>
    simp only [Obj.ofFields, templateF, Bool.and_eq_true] at ht ⊢
    exact ⟨template_like hv ht.1, templateF_like hr ht.2⟩
  | .ctx _ hs hr =>
    simp only [Obj.ofFields, templateF, Bool.and_eq_true] at ht ⊢
    exact ⟨isCtx_template hs, templateF_like hr ht.2⟩
theorem templateL_like {xs ys : List Val} (h : LikeL xs ys) (ht : templateL E (Obj.ofVals xs) = true) :
    templateL E (Obj.ofVals ys) = true := by
  match h with
  | .nil => exact ht
  | .same hr =>
    simp only [Obj.ofVals, templateL, Bool.and_eq_true] at ht ⊢
    exact ⟨ht.1, templateL_like hr ht.2⟩
  | .cons hv hr =>
    simp only [Obj.ofVals, templateL, Bool.and_eq_true] at ht ⊢
    exact ⟨template_like hv ht.1, templateL_like hr ht.2⟩
end

end Mcpyrate.Quotes

namespace Mcpyrate.QuoteOps
open Py Expander Quotes

variable {σ : Type} {L : Lib σ} {E : Env (User σ)} {w w0 : W σ}

theorem bracket_inv {t x : Val} {op : Op} (h : Bracket L E w t op x) :
    ∃ l fs, t = .node (.py .Subscript) l fs ∧ fs.lookup .slice = some x := by
  obtain ⟨k, a, c, hi, ha, rfl⟩ := h
  cases hi with
  | expr hk _ _ _ hs =>
    obtain ⟨l, fs, rfl⟩ := isK_eq hk
    exact ⟨l, fs, rfl, hs⟩
  | block => cases ha
  | decorator => cases ha
  | name => cases ha

theorem hasComplexF_mem {fs : Fields} : hasComplexF (Obj.ofFields fs) = false ↔ ∀ p ∈ fs, hasComplex (.ofVal p.2) = false := by
  induction fs with
  | nil => simp [Obj.ofFields, hasComplexF]
  | cons p r ih => obtain ⟨f, v⟩ := p; simp [Obj.ofFields, hasComplexF, ih]
theorem hasComplexL_mem {xs : List Val} : hasComplexL (Obj.ofVals xs) = false ↔ ∀ x ∈ xs, hasComplex (.ofVal x) = false := by
  induction xs with
  | nil => simp [Obj.ofVals, hasComplexL]
  | cons p r ih => simp [Obj.ofVals, hasComplexL, ih]
theorem templateF_mem {G : Option (String → Option Obj)} {fs : Fields} :
    templateF G (Obj.ofFields fs) = true ↔ ∀ p ∈ fs, template G (.ofVal p.2) = true := by
  induction fs with
  | nil => simp [Obj.ofFields, templateF]
  | cons p r ih => obtain ⟨f, v⟩ := p; simp [Obj.ofFields, templateF, ih]

theorem flatF_mem {fs : Fields} : flatF (Obj.ofFields fs) = true ↔ ∀ p ∈ fs, flat (.ofVal p.2) = true := by
  induction fs with
  | nil => simp [Obj.ofFields, flatF]
  | cons p r ih => obtain ⟨f, v⟩ := p; simp [Obj.ofFields, flatF, ih]
theorem flatL_mem {xs : List Val} : flatL (Obj.ofVals xs) = true ↔
    ∀ x ∈ xs, isList (.ofVal x) = false ∧ flat (.ofVal x) = true := by
  induction xs with
  | nil => simp [Obj.ofVals, flatL]
  | cons p r ih => simp [Obj.ofVals, flatL, ih]

theorem Source.field {c : Cls} {l : Loc} {fs : Fields} (h : Source (.node c l fs)) {p : F × Val} (hp : p ∈ fs) : Source p.2 := by
  obtain ⟨h1, h2, h3⟩ := h
  cases c with
  | marker => simp [Obj.ofVal, parsed] at h1
  | py k =>
    simp only [Obj.ofVal, parsed, hasComplex, flat, Bool.and_eq_true] at h1 h2 h3
    exact ⟨parsedF_mem h1.2 hp, hasComplexF_mem.1 h2 p hp, flatF_mem.1 h3 p hp⟩
theorem Source.item {xs : List Val} (h : Source (.list xs)) {x : Val} (hx : x ∈ xs) : Source x ∧ isList (.ofVal x) = false := by
  obtain ⟨h1, h2, h3⟩ := h
  simp only [Obj.ofVal, parsed, hasComplex, flat] at h1 h2 h3
  exact ⟨⟨parsedL_mem h1 hx, hasComplexL_mem.1 h2 x hx, (flatL_mem.1 h3 x hx).2⟩, (flatL_mem.1 h3 x hx).1⟩
theorem Source.template {t : Val} (h : Source t) (G : Option (String → Option Obj)) : template G (.ofVal t) = true :=
  parsed_template G _ h.1 h.2.1

theorem Captures.field {c : Cls} {l : Loc} {fs : Fields} (h : Captures L E w w0 (.node c l fs)) {p : F × Val} (hp : p ∈ fs) :
    Captures L E w w0 p.2 := by
  obtain ⟨f, v⟩ := p
  intro u op x hr hb
  refine h u op x ?_ hb
  obtain ⟨l', fs', rfl, -⟩ := bracket_inv hb
  cases hr with
  | refl => exact .step (.field hp rfl) (.refl _)
  | step hc hr =>
    cases hc with
    | field h1 h2 => exact .step (.field hp rfl) (.step (.field h1 h2) hr)
    | item h1 h2 h3 => exact .step (.field hp rfl) (.step (.item h1 h2 h3) hr)
    | elt h1 h2 => exact .step (.item hp h1 h2) hr
theorem Captures.item {xs : List Val} (h : Captures L E w w0 (.list xs)) {x : Val} (hx : x ∈ xs) (ha : x.isAST = true) :
    Captures L E w w0 x := fun u op y hr hb => h u op y (.step (.elt hx ha) hr) hb

theorem mem_of_lookup {fs : Fields} {f : F} {v : Val} (h : fs.lookup f = some v) : (f, v) ∈ fs := by
  induction fs with
  | nil => cases h
  | cons p r ih =>
    obtain ⟨g, u⟩ := p
    rw [List.lookup_cons] at h
    by_cases e : f = g
    · subst e; simp at h; subst h; simp
    · have hb : (f == g) = false := by simpa using e
      rw [hb] at h
      exact List.mem_cons_of_mem _ (ih h)

theorem compiled_call {fn : String} {x c : Val} (h : Compiled L fn w x c) : c.isK .Call = true := by
  obtain ⟨st, st', h⟩ := h
  unfold Quotes.quote at h
  obtain ⟨code, s1, h1, h2⟩ := M.bind_some h
  have h3 : (some (.ok (callNode (quotesAttr "splice_ast_literals") [code, constantNode (.str fn)] []), s1) :
    Option (Except Err Obj × Quotes.St σ)) = some (.ok (Obj.ofVal c), st') := h2
  simp only [Option.some.injEq, Prod.mk.injEq, Except.ok.injEq] at h3
  rw [← ofVal_isK, ← h3.1]
  rfl

theorem res_notConst {n : Nat} {x x' : Val} (h : Res L E w n x x') : ∀ c, x' ≠ .const c := by
  match h with
  | .innerQuote hb _ => obtain ⟨l, fs, rfl, -⟩ := bracket_inv hb; exact fun _ h => nomatch h
  | .innerUnquote hb _ _ => obtain ⟨l, fs, rfl, -⟩ := bracket_inv hb; exact fun _ h => nomatch h
  | .interpolated _ _ hi => cases hi <;> exact fun _ h => nomatch h
  | .quote _ _ hc => obtain ⟨l, fs, rfl⟩ := isK_eq (compiled_call hc); exact fun _ h => nomatch h
  | .node .. => exact fun _ h => nomatch h
  | .list _ => exact fun _ h => nomatch h
  | .done hd =>
    rintro c rfl
    cases hd
  | .like (r := r) hr hl =>
    have ih := res_notConst hr
    intro c e
    cases hl with
    | const => exact ih _ rfl
    | list => cases e
    | node => cases e
termination_by structural h

theorem resF_const {n : Nat} {fs fs' : Fields} {f : F} {c : Const} : ResF L E w n fs fs' →
    fs'.lookup f = some (.const c) → fs.lookup f = some (.const c)
  | .nil, h => h
  | .const (f := g) hr, h => by
    rw [List.lookup_cons] at h ⊢
    cases hb : f == g with
    | true => rw [hb] at h; exact h
    | false => rw [hb] at h; exact resF_const hr h
  | .field (f := g) hv hr, h => by
    rw [List.lookup_cons] at h ⊢
    cases hb : f == g with
    | true =>
      rw [hb] at h
      simp only [Option.some.injEq] at h
      exact absurd h (res_notConst hv c)
    | false => rw [hb] at h; exact resF_const hr h

/-- What is unquoted to level zero is `*…` or a name only if it was so before. -/
theorem res_zero {n : Nat} {x x' : Val} (h : Res L E w n x x') (hn : n = 0) :
    (x'.isK .Starred = true → x.isK .Starred = true) ∧
    (x'.isK .Name = true → ∀ s, x'.get? .id = some (.str s) → x.isK .Name = true ∧ x.get? .id = some (.str s)) := by
  match h with
  | .innerQuote .. => cases hn
  | .innerUnquote .. => cases hn
  | .interpolated .. => cases hn
  | .quote hb hr hc =>
    have := compiled_call hc
    obtain ⟨l, fs, rfl⟩ := isK_eq this
    exact ⟨fun h => (nomatch h), fun h => (nomatch h)⟩
  | .node (c := c) (fs := fs) (fs' := fs') _ hF =>
    refine ⟨?_, ?_⟩
    · cases c <;> exact id
    · intro hk s hs
      refine ⟨by cases c <;> exact hk, ?_⟩
      exact resF_const hF hs
  | .list _ => exact ⟨fun h => (nomatch h), fun h => (nomatch h)⟩
  | .done _ => exact ⟨id, fun h s hs => ⟨h, hs⟩⟩
  | .like hr hl =>
    obtain ⟨h1, h2⟩ := res_zero hr hn
    refine ⟨fun h => h1 (by rw [← hl.isK]; exact h), fun h s hs => ?_⟩
    obtain ⟨v, h3, h4⟩ := hl.get' (by decide) hs
    cases h4.const_inv'
    exact h2 (by rw [← hl.isK]; exact h) s h3
termination_by structural h

theorem resF_names {n : Nat} {fs fs' : Fields} : ResF L E w n fs fs' → fs'.map (·.1) = fs.map (·.1)
  | .nil => rfl
  | .const hr => by simp [resF_names hr]
  | .field _ hr => by simp [resF_names hr]

theorem template_withField {G : Option (String → Option Obj)} {t x x' : Val} {op : Op} (hb : Bracket L E w t op x) (hs : Source t)
    (hx : template G (.ofVal x') = true) : template G (.ofVal (withField t .slice x')) = true := by
  obtain ⟨l, fs, rfl, hm⟩ := bracket_inv hb
  have h1 := hs.template G
  simp only [withField, Obj.ofVal, template, Bool.and_eq_true] at h1 ⊢
  refine ⟨?_, templateF_mem.2 fun p hp => ?_⟩
  · rw [shaped_congr (gs := Obj.ofFields fs)]
    · exact h1.1
    · rw [ofFields_names, ofFields_names]
      simp only [setF, List.map_map]
      refine List.map_congr_left fun p _ => ?_
      obtain ⟨g, v⟩ := p
      show (if g = F.slice then (g, x') else (g, v)).1 = g
      split <;> rfl
  · simp only [setF, List.mem_map] at hp
    obtain ⟨⟨g, v⟩, hg, rfl⟩ := hp
    show template G (.ofVal (if g = F.slice then (g, x') else (g, v)).2) = true
    split
    · exact hx
    · exact templateF_mem.1 h1.2 _ hg

/-- The macros that are bound, as functions. -/
def bound (L : Lib σ) (w0 : W σ) : Option (String → Option Obj) := some fun k => (isbound w0 k).map L.function

theorem slice_source {t x : Val} {op : Op} (hb : Bracket L E w t op x) (hs : Source t) : Source x := by
  obtain ⟨l, fs, rfl, hm⟩ := bracket_inv hb
  exact hs.field (mem_of_lookup hm)
theorem slice_captures {t x : Val} {op : Op} (hb : Bracket L E w t op x) (hc : Captures L E w w0 t) : Captures L E w w0 x := by
  obtain ⟨l, fs, rfl, hm⟩ := bracket_inv hb
  exact hc.field (mem_of_lookup hm)

mutual
/-- What quoted code stands for is a template. -/
theorem res_template {n : Nat} {t d : Val} (h : Res L E w n t d) (hn : 0 < n) (hs : Source t) (hc : Captures L E w w0 t) :
    template (bound L w0) (.ofVal d) = true := by
  match h with
  | .innerQuote hb hr => exact template_withField hb hs (res_template hr (by omega) (slice_source hb hs) (slice_captures hb hc))
  | .innerUnquote hb _ hr =>
    exact template_withField hb hs (res_template hr (by omega) (slice_source hb hs) (slice_captures hb hc))
  | .interpolated (op := op) (x := x) (x' := x') hb hr hi =>
    obtain ⟨h1, h2⟩ := res_zero hr rfl
    obtain ⟨h3, h4⟩ := hc _ _ _ (.refl _) hb
    have h5 : x'.isK .Starred = false := by
      cases h : x'.isK .Starred with
      | false => rfl
      | true => rw [h1 h] at h3; cases h3
    cases hi with
    | u => exact (Command.one (.inl rfl) h5).template
    | n => exact (Command.source h5).template
    | a => exact (Command.literal h5).template
    | s => exact (Command.one (.inr (.inl rfl)) h5).template
    | t => exact (Command.one (.inr (.inr rfl)) h5).template
    | h =>
      refine (Command.capture h5 ?_).template
      intro f s hf hk hi
      cases hf
      obtain ⟨h6, h7⟩ := h2 hk s hi
      show (isbound w0 s).map L.function = none
      rw [h4 rfl s h6 h7]
      rfl
  | .quote .. => exact absurd hn (by omega)
  | .node (c := c) (fs := fs) (fs' := fs') hi hF =>
    have h1 := hs.template (bound L w0)
    cases c with
    | marker =>
      have := hs.1
      simp [Obj.ofVal, parsed] at this
    | py k =>
      simp only [Obj.ofVal, template, Bool.and_eq_true] at h1 ⊢
      refine ⟨?_, resF_template hF hn (fun p hp => hs.field hp) (fun p hp => hc.field hp)⟩
      rw [shaped_congr (gs := Obj.ofFields fs)]
      · exact h1.1
      · rw [ofFields_names, ofFields_names, resF_names hF]
  | .list hl =>
    simp only [Obj.ofVal, template]
    exact resL_template hl hn (fun x hx => hs.item hx) (fun x hx ha => hc.item hx ha)
  | .done hd =>
    exact hs.template _
  | .like hr hl => exact template_like hl (res_template hr hn hs hc)
theorem resF_template {n : Nat} {fs fs' : Fields} (h : ResF L E w n fs fs') (hn : 0 < n) (hs : ∀ p ∈ fs, Source p.2)
    (hc : ∀ p ∈ fs, Captures L E w w0 p.2) : templateF (bound L w0) (Obj.ofFields fs') = true := by
  match h with
  | .nil => rfl
  | .const hr =>
    simp only [Obj.ofFields, templateF, Bool.and_eq_true]
    exact ⟨(hs _ (List.mem_cons_self ..)).template _, resF_template hr hn (fun p hp => hs p (by simp [hp])) (fun p hp => hc p (by simp [hp]))⟩
  | .field hv hr =>
    simp only [Obj.ofFields, templateF, Bool.and_eq_true]
    exact ⟨res_template hv hn (hs _ (List.mem_cons_self ..)) (hc _ (List.mem_cons_self ..)),
      resF_template hr hn (fun p hp => hs p (by simp [hp])) (fun p hp => hc p (by simp [hp]))⟩
theorem resL_template {n : Nat} {xs ys : List Val} (h : ResL L E w n xs ys) (hn : 0 < n) (hs : ∀ x ∈ xs, Source x ∧ isList (.ofVal x) = false)
    (hc : ∀ x ∈ xs, x.isAST = true → Captures L E w w0 x) : templateL (bound L w0) (Obj.ofVals ys) = true := by
  match h with
  | .nil => rfl
  | .other _ hr =>
    simp only [Obj.ofVals, templateL, Bool.and_eq_true]
    exact ⟨(hs _ (List.mem_cons_self ..)).1.template _, resL_template hr hn (fun p hp => hs p (by simp [hp])) (fun p hp => hc p (by simp [hp]))⟩
  | .item (x := x) hv hr =>
    simp only [Obj.ofVals, templateL, Bool.and_eq_true]
    refine ⟨res_template hv hn (hs _ (List.mem_cons_self ..)).1 ?_,
      resL_template hr hn (fun p hp => hs p (by simp [hp])) (fun p hp => hc p (by simp [hp]))⟩
    have h1 := (hs x (List.mem_cons_self ..)).2
    cases x with
    | node => exact hc _ (List.mem_cons_self ..) rfl
    | list => cases h1
    | const =>
      intro u op y hr hb
      cases hr with
      | refl =>
        obtain ⟨_, _, e, _⟩ := bracket_inv hb
        cases e
      | step hch => cases hch
end

/-- What the compiled code builds. -/
theorem compiled_means (hH : Imported L.H) {fn : String} {d c : Val} {r : Obj} {st st' : Quotes.St σ}
    (hc : Compiled L fn w0 d c) (ht : template (bound L w0) (.ofVal d) = true) (he : Evaluates L.H (.ofVal c) st r st') :
    ∃ m, Means L.H (.ofVal d) st m st' ∧ (flat m = true → filled m = some r) := by
  obtain ⟨s1, s2, hq⟩ := hc
  obtain ⟨code, h1, h2⟩ := compile_quote hH (bound L w0) (.str fn) (.ofVal d) ht
  rw [show (some fun k => (isbound w0 k).map L.function) = bound L w0 from rfl, h1] at hq
  have hq' : (some (.ok code, s1) : Option (Except Err Obj × Quotes.St σ)) = some (.ok (Obj.ofVal c), s2) := hq
  cases hq'
  unfold Evaluates at he
  rw [h2] at he
  obtain ⟨m, h3, h4⟩ := lift_bind_some he
  exact ⟨m, means_of hH d ht h3, fun hf => ((spliceAstLiterals_iff hf).1 h4).2⟩

/-- When the compiled code builds something. -/
theorem compiled_supplied (hH : Imported L.H) {fn : String} {d c : Val} {st st' : Quotes.St σ}
    (hc : Compiled L fn w0 d c) (ht : template (bound L w0) (.ofVal d) = true) (hs : Supplied L.H (.ofVal d) st st') :
    ∃ m, Means L.H (.ofVal d) st m st' ∧
      (flat m = true → reached m = true → ∀ r, filled m = some r → Evaluates L.H (.ofVal c) st r st') := by
  obtain ⟨s1, s2, hq⟩ := hc
  obtain ⟨code, h1, h2⟩ := compile_quote hH (bound L w0) (.str fn) (.ofVal d) ht
  rw [show (some fun k => (isbound w0 k).map L.function) = bound L w0 from rfl, h1] at hq
  have hq' : (some (.ok code, s1) : Option (Except Err Obj × Quotes.St σ)) = some (.ok (Obj.ofVal c), s2) := hq
  cases hq'
  obtain ⟨m, hm⟩ := hs.meaning hH
  refine ⟨m, means_of hH d ht hm, fun hf hr r he => ?_⟩
  unfold Evaluates
  rw [h2, bind_supplied hm]
  exact lift_val ((spliceAstLiterals_iff hf).2 ⟨hr, he⟩) _

end Mcpyrate.QuoteOps
