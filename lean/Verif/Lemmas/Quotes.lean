import Verif.Spec.Quotes
import Verif.Lemmas.Fields
import Verif.Lemmas.Splice
namespace Mcpyrate
open Py

namespace Py.M
variable {ε σ α β γ : Type}

theorem pure_bind' (a : α) (f : α → M ε σ β) : (Pure.pure a >>= f) = f a := rfl

theorem bind_pure' (m : M ε σ α) : (m >>= Pure.pure) = m := by
  funext s
  show M.bind m M.pure s = m s
  unfold M.bind M.pure
  split <;> simp_all

theorem bind_assoc' (m : M ε σ α) (f : α → M ε σ β) (g : β → M ε σ γ) :
    (m >>= f >>= g) = (m >>= fun a => f a >>= g) := by
  funext s
  show M.bind (M.bind m f) g s = M.bind m (fun a => M.bind (f a) g) s
  unfold M.bind
  cases m s with
  | none => rfl
  | some p => obtain ⟨r, s'⟩ := p; cases r <;> rfl

theorem throw_bind (e : ε) (f : α → M ε σ β) : (M.throw e >>= f) = M.throw e := rfl

instance : LawfulMonad (M ε σ) := LawfulMonad.mk' (M ε σ)
  (id_map := fun x => bind_pure' x)
  (pure_bind := fun a f => pure_bind' a f)
  (bind_assoc := fun m f g => bind_assoc' m f g)

end Py.M

namespace Py

theorem F.text_injective {f g : F} (h : f.text = g.text) : f = g := by
  have := F.ofText_text f
  rw [h, F.ofText_text g] at this
  exact (Option.some.inj this).symm

theorem K.nodup_fields (k : K) : k.fields.Nodup := by
  have h : (K.all.all fun k => decide k.fields.Nodup) = true := by decide +kernel
  simpa using List.all_eq_true.1 h k k.mem_all

end Py

namespace Quotes
open Py
variable {σ : Type}

/-! ### Constructors -/

theorem lookup_text (fs : List (F × Obj)) (f : F) :
    (fs.map fun p => (p.1.text, p.2)).lookup f.text = fs.lookup f := by
  induction fs with
  | nil => rfl
  | cons p fs ih =>
    obtain ⟨g, v⟩ := p
    simp only [List.map_cons, List.lookup_cons]
    by_cases h : f = g
    · subst h; simp
    · have : ¬ f.text = g.text := fun e => h (F.text_injective e)
      have h1 : (f.text == g.text) = false := by simpa using this
      have h2 : (f == g) = false := by simpa using h
      rw [h1, h2]
      exact ih

theorem lookup_eq_none {fs : List (F × Obj)} {f : F} (h : f ∉ fs.map (·.1)) : fs.lookup f = none := by
  induction fs with
  | nil => rfl
  | cons p fs ih =>
    obtain ⟨g, v⟩ := p
    simp only [List.map_cons, List.mem_cons, not_or] at h
    have h2 : (f == g) = false := by simpa using h.1
    rw [List.lookup_cons, h2]
    exact ih h.2

theorem filterMap_congr' {α β : Type} {f g : α → Option β} {l : List α} (h : ∀ x ∈ l, f x = g x) :
    l.filterMap f = l.filterMap g := by
  induction l with
  | nil => rfl
  | cons a l ih =>
    rw [List.filterMap_cons, List.filterMap_cons, h a (by simp), ih (fun x hx => h x (by simp [hx]))]

theorem filterMap_lookup (g : F → Option (F × Obj)) (L : List F) : ∀ (fs : List (F × Obj)), (fs.map (·.1)).Sublist L →
    L.Nodup → (∀ f ∈ L, f ∉ fs.map (·.1) → g f = none) →
    (L.filterMap fun f => match fs.lookup f with | some v => some (f, v) | none => g f) = fs := by
  induction L with
  | nil =>
    intro fs hs _ _
    have := List.eq_nil_of_sublist_nil hs
    cases fs with
    | nil => rfl
    | cons p fs => simp at this
  | cons a L ih =>
    intro fs hs hn hg
    rw [List.nodup_cons] at hn
    by_cases ha : a ∈ fs.map (·.1)
    · cases fs with
      | nil => simp at ha
      | cons p fs =>
        obtain ⟨b, v⟩ := p
        simp only [List.map_cons] at hs ha hg
        have hb : b = a ∧ (fs.map (·.1)).Sublist L := by
          cases hs with
          | cons _ h => exact absurd (h.subset (by simpa using ha)) hn.1
          | cons_cons _ h => exact ⟨rfl, h⟩
        obtain ⟨rfl, hs'⟩ := hb
        rw [List.filterMap_cons]
        simp only [List.lookup_cons, BEq.rfl]
        congr 1
        refine Eq.trans (filterMap_congr' (g := fun f => match fs.lookup f with
          | some v => some (f, v) | none => g f) ?_) (ih fs hs' hn.2 (fun f hf hn' => hg f (by simp [hf]) (by
          simp only [List.mem_cons, not_or]; exact ⟨fun e => hn.1 (e ▸ hf), hn'⟩)))
        intro f hf
        have : (f == b) = false := by simpa using fun e : f = b => hn.1 (e ▸ hf)
        rw [this]
    · have hs' : (fs.map (·.1)).Sublist L := by
        revert hs ha
        generalize fs.map (·.1) = ns
        intro hs ha
        cases hs with
        | cons _ h => exact h
        | cons_cons _ h => simp at ha
      rw [List.filterMap_cons, lookup_eq_none ha]
      simp only [hg a (by simp) ha]
      exact ih fs hs' hn.2 (fun f hf => hg f (by simp [hf]))

theorem nodup_map_text {l : List F} (h : l.Nodup) : (l.map F.text).Nodup := by
  induction l with
  | nil => simp
  | cons a l ih =>
    rw [List.nodup_cons] at h
    rw [List.map_cons, List.nodup_cons]
    refine ⟨?_, ih h.2⟩
    intro hm
    obtain ⟨b, hb, e⟩ := List.mem_map.1 hm
    exact h.1 (F.text_injective e ▸ hb)

theorem construct_self (c : Cls) (fields : List F) (opt : F → Bool) (fs : List (F × Obj)) (hn : fields.Nodup)
    (hs : (fs.map (·.1)).Sublist fields) (ho : ∀ f ∈ fields, opt f = true → f ∈ fs.map (·.1)) :
    construct c fields opt [] (fs.map fun p => (p.1.text, p.2)) = some (.node c {} fs) := by
  unfold construct
  simp only [List.zip_nil_right, List.nil_append]
  rw [if_pos]
  · congr 2
    have := filterMap_lookup (fun f => if opt f then some (f, .none) else none) fields fs hs hn (by
      intro f hf hn
      by_cases h : opt f = true
      · exact absurd (ho f hf h) hn
      · simp [h])
    refine Eq.trans (filterMap_congr' ?_) this
    intro f _
    rw [lookup_text]
    rfl
  · refine ⟨Nat.zero_le _, ?_, ?_⟩
    · have : (fs.map fun p => (p.1.text, p.2)).map (·.1) = (fs.map (·.1)).map F.text := by simp
      rw [this]
      exact nodup_map_text (hs.nodup hn)
    · intro a ha
      obtain ⟨p, hp, rfl⟩ := List.mem_map.1 ha
      exact List.mem_map_of_mem (hs.subset (List.mem_map_of_mem hp))

theorem construct_shaped {k : K} {fs : List (F × Obj)} (h : shaped k fs = true) :
    construct (.py k) k.fields k.isOptional [] (fs.map fun p => (p.1.text, p.2)) = some (.node (.py k) {} fs) := by
  unfold shaped at h
  rw [Bool.and_eq_true] at h
  refine construct_self _ _ _ _ k.nodup_fields (List.isSublist_iff_sublist.1 h.1) ?_
  intro f hf ho
  have := List.all_eq_true.1 h.2 f hf
  simpa [ho] using this

theorem shaped_congr {k : K} {fs gs : List (F × Obj)} (h : fs.map (·.1) = gs.map (·.1)) : shaped k fs = shaped k gs := by
  unfold shaped
  rw [h]

/-! ### Evaluation of what `astify` builds -/

theorem eval_call (H : Host σ) (l : Loc) (f : Obj) (as ks : List Obj) :
    eval H (.node (.py .Call) l [(.func, f), (.args, .list as), (.keywords, .list ks)]) = (do
      let f' ← eval H f
      let as' ← evalL H as
      let ks' ← evalKws H ks
      call H f' as' ks') := rfl

theorem eval_attribute (H : Host σ) (x : Obj) (a : String) :
    eval H (attributeNode x a) = (do getAttr H (← eval H x) a) := rfl

theorem eval_constant (H : Host σ) (c : Const) : eval H (constantNode c) = pure (.const c) := rfl

theorem eval_quotesAttr {H : Host σ} (hH : Imported H) {a : String} (ha : a ∈ quotesNames) :
    eval H (quotesAttr a) = pure (.ref ["mcpyrate", "quotes", a]) := by
  unfold quotesAttr
  rw [eval_attribute, eval_attribute]
  have : eval H (nameNode "mcpyrate") = H.name "mcpyrate" := rfl
  rw [this, hH, M.pure_bind']
  show (getAttr H (.ref ["mcpyrate"]) "quotes" >>= fun x => getAttr H x a) = _
  have h1 : getAttr H (.ref ["mcpyrate"]) "quotes" = pure (.ref ["mcpyrate", "quotes"]) := rfl
  rw [h1, M.pure_bind']
  show (if a ∈ quotesNames then _ else _) = _
  rw [if_pos ha]

theorem eval_astClass {H : Host σ} (hH : Imported H) (k : K) :
    eval H (attributeNode (quotesAttr "ast") k.text) = pure (.ref ["mcpyrate", "quotes", "ast", k.text]) := by
  rw [eval_attribute, eval_quotesAttr hH (by decide), M.pure_bind']
  show (if (K.ofText k.text).isSome then _ else _) = _
  rw [K.ofText_text]
  rfl

theorem call_class (H : Host σ) {k : K} {fs : List (F × Obj)} (h : shaped k fs = true) :
    call H (.ref ["mcpyrate", "quotes", "ast", k.text]) [] (fs.map fun p => (p.1.text, p.2)) =
      pure (.node (.py k) {} fs) := by
  show (match K.ofText k.text with | none => _ | some k => _) = _
  rw [K.ofText_text]
  show (match construct (.py k) k.fields k.isOptional [] (fs.map fun p => (p.1.text, p.2)) with
    | some x => _ | none => _) = _
  rw [construct_shaped h]

theorem call_done (H : Host σ) (x : Obj) :
    call H (.ref ["mcpyrate", "quotes", "Done"]) [] [("body", x)] = pure (.node (.marker "Done") {} [(.body, x)]) := by
  have : construct (.marker "Done") [.body] (fun _ => false) [] [("body", x)] =
    some (.node (.marker "Done") {} [(.body, x)]) :=
    construct_self (.marker "Done") [.body] (fun _ => false) [(.body, x)] (by decide) (by simp) (by simp)
  show (match construct (.marker "Done") [.body] (fun _ => false) [] [("body", x)] with
    | some (.node c l ((f, v) :: fs)) => (pure (.node c l ((f, v) :: fs)) : Q σ Obj) | _ => M.throw .typeError) = _
  rw [this]

/-- What `astify` builds: an expression that is not `*x`. -/
def Code (c : Obj) : Prop := ∃ k l fs, c = .node (.py k) l fs ∧ k ≠ .Starred

theorem Code.call (l : Loc) (fs : List (F × Obj)) : Code (.node (.py .Call) l fs) := ⟨_, _, _, rfl, by decide⟩
theorem Code.constant (c : Const) : Code (constantNode c) := ⟨_, _, _, rfl, by decide⟩

theorem evalL_cons {H : Host σ} {x : Obj} (hx : x.isK .Starred = false) (xs : List Obj) :
    evalL H (x :: xs) = (do
      let v ← eval H x
      return v :: (← evalL H xs)) := by
  cases x with
  | node c l fs =>
    cases c with
    | py k => cases k <;> first | rfl | cases hx
    | marker n => rfl
  | _ => rfl

theorem Code.notStarred {c : Obj} (h : Code c) : c.isK .Starred = false := by
  obtain ⟨k, l, fs, rfl, hk⟩ := h
  show (K.Starred == k) = false
  simpa using fun e : K.Starred = k => hk e.symm

theorem acts_cons {H : Host σ} {x : Obj} (hx : Code x) (xs : List Obj) :
    acts H (x :: xs) = some (eval H x) :: acts H xs := by
  obtain ⟨k, l, fs, rfl, hk⟩ := hx
  rfl

theorem evalKws_cons (H : Host σ) (f : F) (x : Obj) (xs : List Obj) :
    evalKws H (keywordNode f x :: xs) = (do
      let v ← eval H x
      return (f.text, v) :: (← evalKws H xs)) := rfl

theorem meaningF_names (H : Host σ) {fs : List (F × Obj)} {s s' : St σ} {gs : List (F × Obj)}
    (h : meaningF H fs s = some (.ok gs, s')) : gs.map (·.1) = fs.map (·.1) := by
  induction fs generalizing s gs with
  | nil => cases h; rfl
  | cons p fs ih =>
    obtain ⟨f, x⟩ := p
    have h' : M.bind (meaning H x) (fun y => M.bind (meaningF H fs) fun r => M.pure ((f, y) :: r)) s = _ := h
    unfold M.bind at h'
    split at h'
    · cases h'
    · cases h'
    · dsimp only at h'
      split at h'
      · cases h'
      · cases h'
      · rename_i h2
        cases h'
        simp [ih h2]

theorem bind_congr' {ε σ α β : Type} {m : M ε σ α} {f g : α → M ε σ β}
    (h : ∀ a s s', m s = some (.ok a, s') → f a = g a) : (m >>= f) = (m >>= g) := by
  funext s
  show M.bind m f s = M.bind m g s
  unfold M.bind
  split
  · rfl
  · rfl
  · rename_i a s' e; rw [h a s s' e]

theorem eval_unquote {H : Host σ} (hH : Imported H) (l : Loc) {fn : String} (hf : fn ∈ quotesNames) {e : Obj}
    (he : e.isK .Starred = false) (cs : List Const) :
    eval H (.node (.py .Call) l [(.func, quotesAttr fn), (.args, .list (e :: cs.map constantNode)),
      (.keywords, .list [])]) = (do
      let v ← eval H e
      call H (.ref ["mcpyrate", "quotes", fn]) (v :: cs.map .const) []) := by
  have hcs : ∀ cs : List Const, evalL H (cs.map constantNode) = pure (cs.map .const) := by
    intro cs
    induction cs with
    | nil => rfl
    | cons c cs ih =>
      rw [List.map_cons, evalL_cons (Code.constant c).notStarred, eval_constant, M.pure_bind', ih, M.pure_bind']
      rfl
  rw [eval_call, eval_quotesAttr hH hf, M.pure_bind', evalL_cons he, hcs, M.bind_assoc']
  rfl

mutual
theorem compile {H : Host σ} (hH : Imported H) (E : Option (String → Option Obj)) (t : Obj)
    (ht : template E t = true) :
    ∃ code, astify H E t = pure code ∧ Code code ∧ eval H code = meaning H t := by
  match t with
  | .const c =>
    cases c <;> first
      | exact ⟨_, rfl, Code.constant _, rfl⟩
      | (exact absurd ht (by simp [template, isComplex]))
  | .list xs =>
    obtain ⟨cs, h1, h2, -⟩ := compileL hH E xs (by simpa [template] using ht)
    refine ⟨listNode cs, by simp only [astify, h1]; rfl, ⟨_, _, _, rfl, by decide⟩, ?_⟩
    show (do return Obj.list (← evalL H cs)) = _
    rw [h2, meaning]
  | .tuple xs =>
    obtain ⟨cs, h1, h2, -⟩ := compileL hH E xs (by simpa [template] using ht)
    refine ⟨tupleNode cs, by simp only [astify, h1]; rfl, ⟨_, _, _, rfl, by decide⟩, ?_⟩
    show (do return Obj.tuple (← evalL H cs)) = _
    rw [h2, meaning]
  | .set xs =>
    obtain ⟨cs, h1, h2, -⟩ := compileL hH E xs (by simpa [template] using ht)
    refine ⟨setNode cs, by simp only [astify, h1]; rfl, ⟨_, _, _, rfl, by decide⟩, ?_⟩
    show (do lift (H.mkSet (← evalL H cs))) = _
    rw [h2, meaning]
  | .dict ks vs =>
    simp only [template, Bool.and_eq_true] at ht
    obtain ⟨cs, h1, -, h2⟩ := compileL hH E ks ht.1
    obtain ⟨ds, h3, -, h4⟩ := compileL hH E vs ht.2
    refine ⟨dictNode cs ds, by simp only [astify, h1, h3]; rfl, ⟨_, _, _, rfl, by decide⟩, ?_⟩
    show (do lift (H.mkDict (← runDict (acts H cs) (acts H ds)))) = _
    rw [h2, h4, meaning]
  | .node (.py k) l fs =>
    simp only [template, Bool.and_eq_true] at ht
    obtain ⟨kws, h1, h2⟩ := compileF hH E fs ht.2
    refine ⟨.node (.py .Call) (copyLocation (.py .Call) {} (.py k) l)
      [(.func, attributeNode (quotesAttr "ast") k.text), (.args, .list []), (.keywords, .list kws)],
      by simp only [astify, h1]; rfl, Code.call _ _, ?_⟩
    rw [eval_call, eval_astClass hH, M.pure_bind', h2, meaning]
    show (meaningF H fs >>= (fun gs => pure (gs.map fun p => (p.1.text, p.2))) >>= fun ks' => call H _ [] ks') = _
    rw [M.bind_assoc']
    refine bind_congr' fun gs s s' hg => ?_
    rw [M.pure_bind', call_class H (by rw [shaped_congr (meaningF_names H hg)]; exact ht.1)]
  | .node (.marker n) l fs =>
    simp only [template] at ht
    by_cases hd : n = "Done"
    · subst hd
      simp only [if_true, Bool.and_eq_true, beq_iff_eq] at ht
      obtain ⟨kws, h1, h2⟩ := compileF hH E fs ht.2
      refine ⟨callNode (quotesAttr "Done") [] kws, by simp [astify, h1], Code.call _ _, ?_⟩
      show eval H (.node (.py .Call) {} [(.func, quotesAttr "Done"), (.args, .list []), (.keywords, .list kws)]) = _
      rw [eval_call, eval_quotesAttr hH (by decide), M.pure_bind', h2]
      have hm : meaning H (.node (.marker "Done") l fs) =
        (do return .node (.marker "Done") {} (← meaningF H fs)) := rfl
      rw [hm]
      show (meaningF H fs >>= (fun gs => pure (gs.map fun p => (p.1.text, p.2))) >>= fun ks' => call H _ [] ks') = _
      rw [M.bind_assoc']
      refine bind_congr' fun gs s s' hg => ?_
      have hn := meaningF_names H hg
      rw [ht.1] at hn
      match gs, hn with
      | [(f, x)], hn =>
        simp only [List.map_cons, List.map_nil, List.cons.injEq, and_true] at hn
        subst hn
        rw [M.pure_bind']
        exact call_done H x
    · rw [if_neg hd] at ht
      split at ht
      · rename_i e
        simp only [Bool.and_eq_true, Bool.or_eq_true, decide_eq_true_eq, Bool.not_eq_true'] at ht
        obtain ⟨(rfl | rfl) | rfl, he⟩ := ht
        all_goals refine ⟨_, rfl, Code.call _ _, (eval_unquote hH {} (by decide) he []).trans ?_⟩
        all_goals rfl
      · rename_i e c
        simp only [Bool.and_eq_true, decide_eq_true_eq, Bool.not_eq_true'] at ht
        obtain ⟨rfl, he⟩ := ht
        refine ⟨_, rfl, Code.call _ _, (eval_unquote hH {} (by decide) he [c]).trans ?_⟩
        rfl
      · rename_i e c
        simp only [Bool.and_eq_true, decide_eq_true_eq, Bool.not_eq_true'] at ht
        obtain ⟨rfl, he⟩ := ht
        refine ⟨_, rfl, Code.call _ _, (eval_unquote hH {} (by decide) he [c]).trans ?_⟩
        rfl
      · rename_i e c
        simp only [Bool.and_eq_true, decide_eq_true_eq, Bool.not_eq_true', Option.isNone_iff_eq_none] at ht
        obtain ⟨⟨rfl, he⟩, hc⟩ := ht
        refine ⟨callNode (quotesAttr "capture_value") [e, constantNode c] [], ?_, Code.call _ _,
          (eval_unquote hH {} (by decide) he [c]).trans ?_⟩
        · show (match captured E e with | some (f, name) => captureMacro H f name | none => _) = _
          rw [hc]
          rfl
        · rfl
      · simp at ht
  | .ref p => simp [template] at ht
  | .ext n => simp [template] at ht
termination_by structural t
theorem compileL {H : Host σ} (hH : Imported H) (E : Option (String → Option Obj)) (ts : List Obj)
    (ht : templateL E ts = true) :
    ∃ cs, astifyL H E ts = pure cs ∧ evalL H cs = meaningL H ts ∧ acts H cs = meanings H ts := by
  match ts with
  | [] => exact ⟨[], rfl, rfl, rfl⟩
  | t :: ts =>
    simp only [templateL, Bool.and_eq_true] at ht
    obtain ⟨c, h1, h2, h3⟩ := compile hH E t ht.1
    obtain ⟨cs, h4, h5, h6⟩ := compileL hH E ts ht.2
    refine ⟨c :: cs, by simp only [astifyL, h1, h4]; rfl, ?_, ?_⟩
    · rw [evalL_cons h2.notStarred, h3, h5, meaningL]
    · rw [acts_cons h2, h3, h6, meanings]
termination_by structural ts
theorem compileF {H : Host σ} (hH : Imported H) (E : Option (String → Option Obj)) (fs : List (F × Obj))
    (ht : templateF E fs = true) :
    ∃ cs, astifyF H E fs = pure cs ∧
      evalKws H cs = (meaningF H fs >>= fun gs => pure (gs.map fun p => (p.1.text, p.2))) := by
  match fs with
  | [] => exact ⟨[], rfl, rfl⟩
  | (f, t) :: fs =>
    simp only [templateF, Bool.and_eq_true] at ht
    obtain ⟨c, h1, h2, h3⟩ := compile hH E t ht.1
    obtain ⟨cs, h4, h5⟩ := compileF hH E fs ht.2
    refine ⟨keywordNode f c :: cs, by simp only [astifyF, h1, h4]; rfl, ?_⟩
    rw [evalKws_cons, h3, h5, meaningF]
    simp only [M.bind_assoc', M.pure_bind']
    rfl
termination_by structural fs
end

theorem compile_quote {H : Host σ} (hH : Imported H) (E : Option (String → Option Obj)) (filename : Const) (t : Obj)
    (ht : template E t = true) :
    ∃ code, quote H E filename t = pure code ∧
      eval H code = (do lift (spliceAstLiterals (← meaning H t))) := by
  obtain ⟨c, h1, h2, h3⟩ := compile hH E t ht
  refine ⟨callNode (quotesAttr "splice_ast_literals") [c, constantNode filename] [],
    by simp only [quote, h1]; rfl, ?_⟩
  refine (eval_unquote hH {} (by decide) h2.notStarred [filename]).trans ?_
  rw [h3]
  rfl

/-! ### Trees without unquotes -/

mutual
theorem parsed_template (E : Option (String → Option Obj)) (x : Obj) (h : parsed x = true) (hc : hasComplex x = false) :
    template E x = true := by
  match x with
  | .const c => simpa [template, hasComplex] using hc
  | .list xs => exact parsedL_template E xs h hc
  | .node (.py k) l fs =>
    simp only [parsed, Bool.and_eq_true] at h
    simp only [template, Bool.and_eq_true]
    exact ⟨h.1, parsedF_template E fs h.2 hc⟩
  | .node (.marker _) .. | .tuple _ | .set _ | .dict .. | .ref _ | .ext _ => simp [parsed] at h
termination_by structural x
theorem parsedL_template (E : Option (String → Option Obj)) (xs : List Obj) (h : parsedL xs = true)
    (hc : hasComplexL xs = false) : templateL E xs = true := by
  match xs with
  | [] => rfl
  | x :: xs =>
    simp only [parsedL, Bool.and_eq_true] at h
    simp only [hasComplexL, Bool.or_eq_false_iff] at hc
    simp only [templateL, Bool.and_eq_true]
    exact ⟨parsed_template E x h.1 hc.1, parsedL_template E xs h.2 hc.2⟩
termination_by structural xs
theorem parsedF_template (E : Option (String → Option Obj)) (fs : List (F × Obj)) (h : parsedF fs = true)
    (hc : hasComplexF fs = false) : templateF E fs = true := by
  match fs with
  | [] => rfl
  | (f, x) :: r =>
    simp only [parsedF, Bool.and_eq_true] at h
    simp only [hasComplexF, Bool.or_eq_false_iff] at hc
    simp only [templateF, Bool.and_eq_true]
    exact ⟨parsed_template E x h.1 hc.1, parsedF_template E r h.2 hc.2⟩
termination_by structural fs
end

mutual
theorem meaning_parsed (H : Host σ) (x : Obj) (h : parsed x = true) : meaning H x = pure (noLoc x) := by
  match x with
  | .const c => rfl
  | .list xs =>
    simp only [parsed] at h
    simp only [meaning, meaningL_parsed H xs h, noLoc, M.pure_bind']
  | .node (.py k) l fs =>
    simp only [parsed, Bool.and_eq_true] at h
    simp only [meaning, meaningF_parsed H fs h.2, noLoc, M.pure_bind']
  | .node (.marker _) .. | .tuple _ | .set _ | .dict .. | .ref _ | .ext _ => simp [parsed] at h
termination_by structural x
theorem meaningL_parsed (H : Host σ) (xs : List Obj) (h : parsedL xs = true) :
    meaningL H xs = pure (noLocL xs) := by
  match xs with
  | [] => rfl
  | x :: xs =>
    simp only [parsedL, Bool.and_eq_true] at h
    simp only [meaningL, meaning_parsed H x h.1, meaningL_parsed H xs h.2, M.pure_bind', noLocL]
termination_by structural xs
theorem meaningF_parsed (H : Host σ) (fs : List (F × Obj)) (h : parsedF fs = true) :
    meaningF H fs = pure (noLocF fs) := by
  match fs with
  | [] => rfl
  | (f, x) :: r =>
    simp only [parsedF, Bool.and_eq_true] at h
    simp only [meaningF, meaning_parsed H x h.1, meaningF_parsed H r h.2, M.pure_bind', noLocF]
termination_by structural fs
end

mutual
theorem astify_pure (H : Host σ) (E : Option (String → Option Obj)) (x : Obj) (h : parsed x = true)
    (hc : hasComplex x = false) : ∃ c, astify H E x = pure c := by
  match x with
  | .const c => cases c <;> first | exact ⟨_, rfl⟩ | (simp [hasComplex, isComplex] at hc)
  | .list xs =>
    obtain ⟨cs, h1⟩ := astifyL_pure H E xs h hc
    exact ⟨_, by simp only [astify, h1, M.pure_bind']; rfl⟩
  | .node (.py k) l fs =>
    simp only [parsed, Bool.and_eq_true] at h
    obtain ⟨cs, h1⟩ := astifyF_pure H E fs h.2 hc
    exact ⟨_, by simp only [astify, h1, M.pure_bind']; rfl⟩
  | .node (.marker _) .. | .tuple _ | .set _ | .dict .. | .ref _ | .ext _ => simp [parsed] at h
termination_by structural x
theorem astifyL_pure (H : Host σ) (E : Option (String → Option Obj)) (xs : List Obj) (h : parsedL xs = true)
    (hc : hasComplexL xs = false) : ∃ cs, astifyL H E xs = pure cs := by
  match xs with
  | [] => exact ⟨_, rfl⟩
  | x :: xs =>
    simp only [parsedL, Bool.and_eq_true] at h
    simp only [hasComplexL, Bool.or_eq_false_iff] at hc
    obtain ⟨c, h1⟩ := astify_pure H E x h.1 hc.1
    obtain ⟨cs, h2⟩ := astifyL_pure H E xs h.2 hc.2
    exact ⟨_, by simp only [astifyL, h1, h2, M.pure_bind']; rfl⟩
termination_by structural xs
theorem astifyF_pure (H : Host σ) (E : Option (String → Option Obj)) (fs : List (F × Obj)) (h : parsedF fs = true)
    (hc : hasComplexF fs = false) : ∃ cs, astifyF H E fs = pure cs := by
  match fs with
  | [] => exact ⟨_, rfl⟩
  | (f, x) :: r =>
    simp only [parsedF, Bool.and_eq_true] at h
    simp only [hasComplexF, Bool.or_eq_false_iff] at hc
    obtain ⟨c, h1⟩ := astify_pure H E x h.1 hc.1
    obtain ⟨cs, h2⟩ := astifyF_pure H E r h.2 hc.2
    exact ⟨_, by simp only [astifyF, h1, h2, M.pure_bind']; rfl⟩
termination_by structural fs
end

mutual
theorem astify_complex (H : Host σ) (E : Option (String → Option Obj)) (x : Obj) (h : parsed x = true)
    (hc : hasComplex x = true) : astify H E x = M.throw .typeError := by
  match x with
  | .const c => cases c <;> first | rfl | (simp [hasComplex, isComplex] at hc)
  | .list xs =>
    simp only [astify, astifyL_complex H E xs h hc, M.throw_bind]
  | .node (.py k) l fs =>
    simp only [parsed, Bool.and_eq_true] at h
    simp only [astify, astifyF_complex H E fs h.2 hc, M.throw_bind]
  | .node (.marker _) .. | .tuple _ | .set _ | .dict .. | .ref _ | .ext _ => simp [parsed] at h
termination_by structural x
theorem astifyL_complex (H : Host σ) (E : Option (String → Option Obj)) (xs : List Obj) (h : parsedL xs = true)
    (hc : hasComplexL xs = true) : astifyL H E xs = M.throw .typeError := by
  match xs with
  | [] => cases hc
  | x :: xs =>
    simp only [parsedL, Bool.and_eq_true] at h
    simp only [hasComplexL] at hc
    by_cases hx : hasComplex x = true
    · simp only [astifyL, astify_complex H E x h.1 hx, M.throw_bind]
    · have hxs : hasComplexL xs = true := by simpa [hx] using hc
      simp only [astifyL, astifyL_complex H E xs h.2 hxs, M.throw_bind]
      obtain ⟨c, h1⟩ := astify_pure H E x h.1 (by simpa using hx)
      rw [h1]
      rfl
termination_by structural xs
theorem astifyF_complex (H : Host σ) (E : Option (String → Option Obj)) (fs : List (F × Obj)) (h : parsedF fs = true)
    (hc : hasComplexF fs = true) : astifyF H E fs = M.throw .typeError := by
  match fs with
  | [] => cases hc
  | (f, x) :: r =>
    simp only [parsedF, Bool.and_eq_true] at h
    simp only [hasComplexF] at hc
    by_cases hx : hasComplex x = true
    · simp only [astifyF, astify_complex H E x h.1 hx, M.throw_bind]
    · have hxs : hasComplexF r = true := by simpa [hx] using hc
      simp only [astifyF, astifyF_complex H E r h.2 hxs, M.throw_bind]
      obtain ⟨c, h1⟩ := astify_pure H E x h.1 (by simpa using hx)
      rw [h1]
      rfl
termination_by structural fs
end

mutual
theorem parsed_unmarked (x : Obj) (h : parsed x = true) : marked x = false := by
  match x with
  | .const _ => rfl
  | .list xs => exact parsedL_unmarked xs h
  | .node (.py k) l fs =>
    simp only [parsed, Bool.and_eq_true] at h
    simp [marked, parsedF_unmarked fs h.2]
  | .node (.marker _) .. | .tuple _ | .set _ | .dict .. | .ref _ | .ext _ => simp [parsed] at h
termination_by structural x
theorem parsedL_unmarked (xs : List Obj) (h : parsedL xs = true) : markedL xs = false := by
  match xs with
  | [] => rfl
  | x :: xs =>
    simp only [parsedL, Bool.and_eq_true] at h
    simp [markedL, parsed_unmarked x h.1, parsedL_unmarked xs h.2]
termination_by structural xs
theorem parsedF_unmarked (fs : List (F × Obj)) (h : parsedF fs = true) : markedF fs = false := by
  match fs with
  | [] => rfl
  | (f, x) :: r =>
    simp only [parsedF, Bool.and_eq_true] at h
    simp [markedF, parsed_unmarked x h.1, parsedF_unmarked r h.2]
termination_by structural fs
end

mutual
theorem marked_noLoc (x : Obj) : marked (noLoc x) = marked x := by
  match x with
  | .list xs => exact markedL_noLoc xs
  | .node c l fs => simp only [noLoc, marked, markedF_noLoc fs]
  | .const _ | .tuple _ | .set _ | .dict .. | .ref _ | .ext _ => rfl
termination_by structural x
theorem markedL_noLoc (xs : List Obj) : markedL (noLocL xs) = markedL xs := by
  match xs with
  | [] => rfl
  | x :: xs => simp only [noLocL, markedL, marked_noLoc x, markedL_noLoc xs]
termination_by structural xs
theorem markedF_noLoc (fs : List (F × Obj)) : markedF (noLocF fs) = markedF fs := by
  match fs with
  | [] => rfl
  | (f, x) :: r => simp only [noLocF, markedF, marked_noLoc x, markedF_noLoc r]
termination_by structural fs
end

theorem isList_noLoc (x : Obj) : isList (noLoc x) = isList x := by cases x <;> rfl

mutual
theorem flat_noLoc (x : Obj) : flat (noLoc x) = flat x := by
  match x with
  | .list xs => exact flatL_noLoc xs
  | .node c l fs => exact flatF_noLoc fs
  | .const _ | .tuple _ | .set _ | .dict .. | .ref _ | .ext _ => rfl
termination_by structural x
theorem flatL_noLoc (xs : List Obj) : flatL (noLocL xs) = flatL xs := by
  match xs with
  | [] => rfl
  | x :: xs => simp only [noLocL, flatL, isList_noLoc, flat_noLoc x, flatL_noLoc xs]
termination_by structural xs
theorem flatF_noLoc (fs : List (F × Obj)) : flatF (noLocF fs) = flatF fs := by
  match fs with
  | [] => rfl
  | (f, x) :: r => simp only [noLocF, flatF, flat_noLoc x, flatF_noLoc r]
termination_by structural fs
end

mutual
theorem reached_noLoc (x : Obj) : reached (noLoc x) = reached x := by
  match x with
  | .list xs => exact reachedL_noLoc xs
  | .node c l fs => simp only [noLoc, reached, markedF_noLoc, reachedF_noLoc fs]
  | .const _ | .tuple _ | .set _ | .dict .. | .ref _ | .ext _ => rfl
termination_by structural x
theorem reachedL_noLoc (xs : List Obj) : reachedL (noLocL xs) = reachedL xs := by
  match xs with
  | [] => rfl
  | x :: xs => simp only [noLocL, reachedL, reachedItem_noLoc x, reachedL_noLoc xs]
termination_by structural xs
theorem reachedItem_noLoc (x : Obj) : reachedItem (noLoc x) = reachedItem x := by
  match x with
  | .list xs => exact reachedL_noLoc xs
  | .node c l fs => simp only [noLoc, reachedItem, markedF_noLoc, reachedF_noLoc fs, reachedBody_noLoc fs]
  | .const _ | .tuple _ | .set _ | .dict .. | .ref _ | .ext _ => rfl
termination_by structural x
theorem reachedBody_noLoc (fs : List (F × Obj)) : reachedBody (noLocF fs) = reachedBody fs := by
  match fs with
  | [] => rfl
  | (f, x) :: r => simp only [noLocF, reachedBody, reachedItems_noLoc x, reachedBody_noLoc r]
termination_by structural fs
theorem reachedItems_noLoc (x : Obj) : reachedItems (noLoc x) = reachedItems x := by
  match x with
  | .list xs => exact reachedL_noLoc xs
  | .const _ | .tuple _ | .set _ | .dict .. | .ref _ | .ext _ | .node .. => rfl
termination_by structural x
theorem reachedF_noLoc (fs : List (F × Obj)) : reachedF (noLocF fs) = reachedF fs := by
  match fs with
  | [] => rfl
  | (f, x) :: r => simp only [noLocF, reachedF, reachedField_noLoc x, reachedF_noLoc r]
termination_by structural fs
theorem reachedField_noLoc (x : Obj) : reachedField (noLoc x) = reachedField x := by
  match x with
  | .list xs => exact reachedL_noLoc xs
  | .node c l fs => simp only [noLoc, reachedField, marked, markedF_noLoc]
  | .const _ | .tuple _ | .set _ | .dict .. | .ref _ | .ext _ => rfl
termination_by structural x
end

end Quotes
end Mcpyrate
