import Verif.Lemmas.QuoteCode
import Verif.Lemmas.FixLocations
import Verif.Lemmas.FixCtx
/-
Generated code after `fix_locations` and `fix_ctx`: still the code for the same tree.
-/
namespace Mcpyrate.QuoteOps
open Py Expander Quotes

variable {σ : Type}

/-- Only `ctx` fields. -/
def Extra (e : Fields) : Prop := ∀ p ∈ e, p.1 = F.ctx

/-- An expression that refers to a thing in a module. -/
inductive Refers : List String → Val → Prop
  | name {l n e} : Extra e → Refers [n] (.node (.py .Name) l ((.id, .str n) :: e))
  | attr {l p v a e} : Refers p v → Extra e → Refers (p ++ [a]) (.node (.py .Attribute) l ((.value, v) :: (.attr, .str a) :: e))

mutual
/-- `c` is code for the tree `x`. -/
def Codes : Val → Val → Prop
  | .const k, c => isComplex k = false ∧ ∃ l, c = .node (.py .Constant) l [(.value, .const k), (.kind, .none)]
  | .list xs, c => ∃ l cs e, c = .node (.py .List) l ((.elts, .list cs) :: e) ∧ Extra e ∧ CodesL xs cs
  | .node (.py k) l fs, c => ∃ l' f cs, c = .node (.py .Call) l' [(.func, f), (.args, .list []), (.keywords, .list cs)] ∧
      Refers ["mcpyrate", "quotes", "ast", k.text] f ∧ (Cls.hasLoc (.py k) = true → l' = l) ∧ CodesF fs cs
  | .node (.marker _) _ _, _ => False
def CodesL : List Val → List Val → Prop
  | [], cs => cs = []
  | x :: xs, cs => ∃ c cs', cs = c :: cs' ∧ Codes x c ∧ CodesL xs cs'
def CodesF : List (F × Val) → List Val → Prop
  | [], cs => cs = []
  | (f, x) :: r, cs => ∃ c l cs', cs = .node (.py .keyword) l [(.arg, .str f.text), (.value, c)] :: cs' ∧ Codes x c ∧ CodesF r cs'
end

theorem Codes.isAST {x c : Val} (h : Codes x c) : c.isAST = true := by
  cases x with
  | const => obtain ⟨-, _, rfl⟩ := h; rfl
  | list xs => rw [Codes] at h; obtain ⟨_, _, _, rfl, -⟩ := h; rfl
  | node cl l fs =>
    cases cl with
    | marker => cases h
    | py k => rw [Codes] at h; obtain ⟨_, _, _, rfl, -⟩ := h; rfl

theorem Refers.isAST {p : List String} {v : Val} (h : Refers p v) : v.isAST = true := by cases h <;> rfl

/-! ### the fixers -/

/-- What the fixers do to a node. -/
structure Slight {τ : Type} (out : τ → Cls → Loc → Fields → Out τ) : Prop where
  leaf : ∀ s c l fs f v, f ≠ F.ctx → (out s c l fs).leaf f v = none
  extra : ∀ s c l fs, Extra (out s c l fs).extra
  noExtra : ∀ s c l fs, c.hasCtx = false → (out s c l fs).extra = []
  loc : ∀ s c l fs, l.lineno ≠ .missing → l.colOffset ≠ .missing → (out s c l fs).loc = l

section
variable {τ : Type} {out : τ → Cls → Loc → Fields → Out τ}

theorem tmapF_node (o : Out τ) {f : F} {v : Val} (r : Fields) (hv : v.isAST = true) (hl : o.leaf f v = none) :
    tmapF out o ((f, v) :: r) = (f, tmap out (o.child f) v) :: tmapF out o r := by
  cases v with
  | node => rw [tmapF, hl]; rfl
  | _ => cases hv

theorem tmapF_const (o : Out τ) {f : F} {k : Const} (r : Fields) (hl : o.leaf f (.const k) = none) :
    tmapF out o ((f, .const k) :: r) = (f, .const k) :: tmapF out o r := by
  rw [tmapF, hl]; rfl

theorem tmapF_list (o : Out τ) {f : F} {xs : List Val} (r : Fields) (hl : o.leaf f (.list xs) = none) :
    tmapF out o ((f, .list xs) :: r) = (f, .list (tmapL out (o.child f) xs)) :: tmapF out o r := by
  rw [tmapF, hl]; rfl

theorem tmapL_node (s : τ) {v : Val} (r : List Val) (hv : v.isAST = true) :
    tmapL out s (v :: r) = tmap out s v :: tmapL out s r := by
  cases v with
  | node => rw [tmapL]
  | _ => cases hv

theorem Extra.tmapF {e : Fields} (h : Extra e) (o : Out τ) : Extra (tmapF out o e) := by
  induction e with
  | nil => intro p hp; cases hp
  | cons p e ih =>
    obtain ⟨f, v⟩ := p
    have hf : f = .ctx := h (f, v) (by simp)
    have ih := ih fun p hp => h p (by simp [hp])
    intro q hq
    cases v <;> rw [Py.tmapF] at hq <;> rcases List.mem_cons.mp hq with rfl | hq <;> first | exact hf | exact ih q hq

theorem Extra.append {e e' : Fields} (h : Extra e) (h' : Extra e') : Extra (e ++ e') := by
  intro p hp
  rcases List.mem_append.mp hp with hp | hp
  · exact h p hp
  · exact h' p hp

theorem Refers.tmap (ho : Slight out) {p : List String} {v : Val} (h : Refers p v) (s : τ) : Refers p (tmap out s v) := by
  induction h generalizing s with
  | @name l n e he =>
    rw [Py.tmap, tmapF_const _ _ (ho.leaf _ _ _ _ _ _ (by decide)), List.cons_append]
    exact .name ((he.tmapF _).append (ho.extra _ _ _ _))
  | @attr l p v a e hv he ih =>
    rw [Py.tmap, tmapF_node _ _ hv.isAST (ho.leaf _ _ _ _ _ _ (by decide)), tmapF_const _ _ (ho.leaf _ _ _ _ _ _ (by decide)),
      List.cons_append, List.cons_append]
    exact .attr (ih _) ((he.tmapF _).append (ho.extra _ _ _ _))

mutual
theorem Codes.tmap (ho : Slight out) (x c : Val) (h : Codes x c) (hl : located (.ofVal x) = true) (s : τ) : Codes x (tmap out s c) := by
  match x with
  | .const k =>
    obtain ⟨hc, l, rfl⟩ := h
    rw [Py.tmap, tmapF_const _ _ (ho.leaf _ _ _ _ _ _ (by decide)), tmapF_const _ _ (ho.leaf _ _ _ _ _ _ (by decide)),
      ho.noExtra _ _ _ _ rfl, Py.tmapF]
    exact ⟨hc, _, rfl⟩
  | .list xs =>
    rw [Codes] at h ⊢
    obtain ⟨l, cs, e, rfl, he, hcs⟩ := h
    rw [Py.tmap, tmapF_list _ _ (ho.leaf _ _ _ _ _ _ (by decide)), List.cons_append]
    exact ⟨_, _, _, rfl, (he.tmapF _).append (ho.extra _ _ _ _), CodesL.tmapL ho xs cs hcs hl _⟩
  | .node (.marker _) _ _ => cases h
  | .node (.py k) l fs =>
    rw [Codes] at h ⊢
    simp only [Obj.ofVal, located, Bool.and_eq_true] at hl
    obtain ⟨l', f, cs, rfl, hf, hloc, hcs⟩ := h
    rw [Py.tmap, tmapF_node _ _ hf.isAST (ho.leaf _ _ _ _ _ _ (by decide)), tmapF_list _ _ (ho.leaf _ _ _ _ _ _ (by decide)),
      tmapF_list _ _ (ho.leaf _ _ _ _ _ _ (by decide)), ho.noExtra _ _ _ _ rfl]
    refine ⟨_, _, _, rfl, hf.tmap ho _, fun hk => ?_, CodesF.tmapL ho fs cs hcs hl.2 _⟩
    have e := hloc hk
    subst e
    have hfull := hl.1
    unfold fullLoc at hfull
    rw [if_pos hk] at hfull
    split at hfull
    · exact ho.loc _ _ _ _ (by simp) (by simp)
    · exact ho.loc _ _ _ _ (by simp) (by simp)
    · cases hfull
theorem CodesL.tmapL (ho : Slight out) (xs cs : List Val) (h : CodesL xs cs) (hl : locatedL (Obj.ofVals xs) = true) (s : τ) :
    CodesL xs (tmapL out s cs) := by
  match xs with
  | [] => rw [CodesL] at h ⊢; subst h; rw [Py.tmapL]
  | x :: xs =>
    rw [CodesL] at h ⊢
    simp only [Obj.ofVals, locatedL, Bool.and_eq_true] at hl
    obtain ⟨c, cs', rfl, h1, h2⟩ := h
    exact ⟨_, _, tmapL_node _ _ h1.isAST, Codes.tmap ho x c h1 hl.1 s, CodesL.tmapL ho xs cs' h2 hl.2 s⟩
theorem CodesF.tmapL (ho : Slight out) (fs : List (F × Val)) (cs : List Val) (h : CodesF fs cs)
    (hl : locatedF (Obj.ofFields fs) = true) (s : τ) : CodesF fs (tmapL out s cs) := by
  match fs with
  | [] => rw [CodesF] at h ⊢; subst h; rw [Py.tmapL]
  | (f, x) :: r =>
    rw [CodesF] at h ⊢
    simp only [Obj.ofFields, locatedF, Bool.and_eq_true] at hl
    obtain ⟨c, l, cs', rfl, h1, h2⟩ := h
    rw [tmapL_node _ _ rfl, Py.tmap, tmapF_const _ _ (ho.leaf _ _ _ _ _ _ (by decide)),
      tmapF_node _ _ h1.isAST (ho.leaf _ _ _ _ _ _ (by decide)), ho.noExtra _ _ _ _ rfl, Py.tmapF, List.append_nil]
    exact ⟨_, _, _, rfl, Codes.tmap ho x c h1 hl.1 _, CodesF.tmapL ho r cs' h2 hl.2 s⟩
end
end

theorem slight_ctx : Slight FixCtx.out where
  leaf s c l fs f v hf := by simp [FixCtx.out, hf]
  extra s c l fs := by
    intro p hp
    unfold FixCtx.out at hp
    dsimp only at hp
    split at hp
    · rw [List.mem_singleton] at hp; rw [hp]
    · cases hp
  noExtra s c l fs hc := by simp [FixCtx.out, hc]
  loc s c l fs _ _ := rfl

theorem slight_loc : Slight (FixLocations.out .reference) where
  leaf s c l fs f v _ := by rw [(FixLocations.out_leaf _ _ _ _ _).1]
  extra s c l fs := by rw [(FixLocations.out_leaf _ _ _ _ _).2]; intro p hp; cases hp
  noExtra s c l fs _ := (FixLocations.out_leaf _ _ _ _ _).2
  loc s c l fs h1 h2 := by
    obtain ⟨a, b, d, e⟩ := l
    unfold FixLocations.out FixLocations.step
    cases c.hasLoc with
    | false => rfl
    | true =>
      have ha : FixLocations.Attr.has a = true := (FixLocations.has_iff a).2 h1
      have hb : FixLocations.Attr.has b = true := (FixLocations.has_iff b).2 h2
      simp [ha, hb]

/-! ### compiling -/

theorem Extra.nil : Extra [] := fun _ h => nomatch h

mutual
theorem astify_codes (H : Host σ) (x : Val) (h : parsed (.ofVal x) = true) (hc : hasComplex (.ofVal x) = false)
    (hl : located (.ofVal x) = true) : ∃ c, (∀ B, astify H B (.ofVal x) = pure (.ofVal c)) ∧ Codes x c := by
  match x with
  | .const k =>
    refine ⟨mk .Constant [(.value, .const k), (.kind, .none)], ?_, ?_⟩
    · intro B; cases k <;> first | rfl | cases hc
    · exact ⟨(by cases k <;> first | rfl | cases hc), _, rfl⟩
  | .list xs =>
    obtain ⟨cs, h1, h2⟩ := astifyL_codes H xs (by simpa only [Obj.ofVal, parsed] using h)
      (by simpa only [Obj.ofVal, hasComplex] using hc) (by simpa only [Obj.ofVal, located] using hl)
    refine ⟨mk .List [(.elts, .list cs)], ?_, ?_⟩
    · intro B; simp only [Obj.ofVal, astify, h1]; rfl
    · rw [Codes]; exact ⟨_, _, _, rfl, .nil, h2⟩
  | .node (.marker n) l fs => simp [Obj.ofVal, parsed] at h
  | .node (.py k) l fs =>
    simp only [Obj.ofVal, parsed, Bool.and_eq_true] at h
    simp only [Obj.ofVal, located, Bool.and_eq_true] at hl
    obtain ⟨cs, h1, h2⟩ := astifyF_codes H fs h.2 (by simpa only [Obj.ofVal, hasComplex] using hc) hl.2
    refine ⟨.node (.py .Call) (copyLocation (.py .Call) {} (.py k) l)
      [(.func, mk .Attribute [(.value, attrCode "ast"), (.attr, .str k.text)]), (.args, .list []), (.keywords, .list cs)],
      ?_, ?_⟩
    · intro B; simp only [Obj.ofVal, astify, h1]; rfl
    · rw [Codes]
      refine ⟨_, _, _, rfl, ?_, fun hk => ?_, h2⟩
      · exact .attr (p := ["mcpyrate", "quotes", "ast"]) (.attr (p := ["mcpyrate", "quotes"]) (.attr (p := ["mcpyrate"]) (.name .nil) .nil) .nil) .nil
      · have hfull := hl.1
        unfold fullLoc at hfull
        rw [if_pos hk] at hfull
        unfold copyLocation
        rw [hk]
        split at hfull <;> first | rfl | cases hfull
theorem astifyL_codes (H : Host σ) (xs : List Val) (h : parsedL (Obj.ofVals xs) = true)
    (hc : hasComplexL (Obj.ofVals xs) = false) (hl : locatedL (Obj.ofVals xs) = true) :
    ∃ cs, (∀ B, astifyL H B (Obj.ofVals xs) = pure (Obj.ofVals cs)) ∧ CodesL xs cs := by
  match xs with
  | [] => exact ⟨[], fun _ => rfl, rfl⟩
  | x :: xs =>
    simp only [Obj.ofVals, parsedL, Bool.and_eq_true] at h
    simp only [Obj.ofVals, locatedL, Bool.and_eq_true] at hl
    simp only [Obj.ofVals, hasComplexL, Bool.or_eq_false_iff] at hc
    obtain ⟨c, h1, h2⟩ := astify_codes H x h.1 hc.1 hl.1
    obtain ⟨cs, h3, h4⟩ := astifyL_codes H xs h.2 hc.2 hl.2
    refine ⟨c :: cs, ?_, by rw [CodesL]; exact ⟨_, _, rfl, h2, h4⟩⟩
    intro B; simp only [Obj.ofVals, astifyL, h1, h3]; rfl
theorem astifyF_codes (H : Host σ) (fs : List (F × Val)) (h : parsedF (Obj.ofFields fs) = true)
    (hc : hasComplexF (Obj.ofFields fs) = false) (hl : locatedF (Obj.ofFields fs) = true) :
    ∃ cs, (∀ B, astifyF H B (Obj.ofFields fs) = pure (Obj.ofVals cs)) ∧ CodesF fs cs := by
  match fs with
  | [] => exact ⟨[], fun _ => rfl, rfl⟩
  | (f, x) :: fs =>
    simp only [Obj.ofFields, parsedF, Bool.and_eq_true] at h
    simp only [Obj.ofFields, locatedF, Bool.and_eq_true] at hl
    simp only [Obj.ofFields, hasComplexF, Bool.or_eq_false_iff] at hc
    obtain ⟨c, h1, h2⟩ := astify_codes H x h.1 hc.1 hl.1
    obtain ⟨cs, h3, h4⟩ := astifyF_codes H fs h.2 hc.2 hl.2
    refine ⟨mk .keyword [(.arg, .str f.text), (.value, c)] :: cs, ?_, by rw [CodesF]; exact ⟨_, _, _, rfl, h2, h4⟩⟩
    intro B; simp only [Obj.ofFields, astifyF, h1, h3]; rfl
end

/-! ### uncompiling -/

theorem Refers.dotted {p : List String} {v : Val} (h : Refers p v) (acc : List String) :
    dotted (.ofVal v) acc = some (p ++ acc) := by
  induction h generalizing acc with
  | name => rfl
  | @attr l p v a e _ _ ih =>
    have : Quotes.dotted (.ofVal (.node (.py .Attribute) l ((.value, v) :: (.attr, .str a) :: e))) acc =
      Quotes.dotted (.ofVal v) (a :: acc) := rfl
    rw [this, ih, List.append_assoc]; rfl

mutual
theorem Codes.unastify (H : Host σ) (x c : Val) (h : Codes x c) (hp : parsed (.ofVal x) = true)
    (hl : located (.ofVal x) = true) : unastify H (.ofVal c) = pure (.ofVal x) := by
  match x with
  | .const k => obtain ⟨-, l, rfl⟩ := h; rfl
  | .list xs =>
    rw [Codes] at h
    obtain ⟨l, cs, e, rfl, -, hcs⟩ := h
    have : Quotes.unastify H (.ofVal (.node (.py .List) l ((.elts, .list cs) :: e))) =
      (do return Obj.list (← Quotes.unastifyL H (Obj.ofVals cs))) := rfl
    rw [this, CodesL.unastifyL H xs cs hcs (by simpa only [Obj.ofVal, parsed] using hp) (by simpa only [Obj.ofVal, located] using hl)]
    rfl
  | .node (.marker _) _ _ => cases h
  | .node (.py k) l fs =>
    rw [Codes] at h
    simp only [Obj.ofVal, located, Bool.and_eq_true] at hl
    simp only [Obj.ofVal, parsed, Bool.and_eq_true] at hp
    obtain ⟨l', f, cs, rfl, hf, hloc, hcs⟩ := h
    have e : Obj.ofVal (.node (.py .Call) l' [(.func, f), (.args, .list []), (.keywords, .list cs)]) =
      .node (.py .Call) l' [(.func, .ofVal f), (.args, .list []), (.keywords, .list (Obj.ofVals cs))] := rfl
    have hnd : ((Obj.ofFields fs).map (·.1)).Nodup := by
      have := hp.1
      unfold shaped at this
      rw [Bool.and_eq_true] at this
      exact (List.isSublist_iff_sublist.1 this.1).nodup k.nodup_fields
    rw [e, unastify_general H _ _ _ _ ["mcpyrate", "quotes", "ast", k.text] (hf.dotted []) (by simp) (by simp),
      lookupThing_class, M.pure_bind', CodesF.unastifyPairs H fs cs hcs hp.2 hl.2]
    show (do
      let node ← call H _ [] (← lift (toKwargs ((Obj.ofFields fs).map fun (p : F × Obj) => (.str p.1.text, p.2))))
      lift (relocate node (.py .Call) _)) = _
    rw [toKwargs_ok _ hnd]
    show (call H _ [] ((Obj.ofFields fs).map fun p => (p.1.text, p.2)) >>= fun node => _) = _
    rw [call_class H hp.1, M.pure_bind']
    show (pure (Obj.node (.py k) (copyLocation (.py k) {} (.py .Call) l') (Obj.ofFields fs)) : Q σ Obj) = _
    have hcopy : copyLocation (.py k) {} (.py .Call) l' = l := by
      have hfull := hl.1
      unfold fullLoc at hfull
      unfold copyLocation
      split at hfull
      · rename_i hk
        rw [hloc hk, hk]
        split at hfull <;> first | rfl | cases hfull
      · rename_i hk
        have hk : Cls.hasLoc (.py k) = false := by simpa using hk
        rw [hk]
        exact (beq_iff_eq.1 hfull).symm
    rw [hcopy]
    rfl
theorem CodesL.unastifyL (H : Host σ) (xs cs : List Val) (h : CodesL xs cs) (hp : parsedL (Obj.ofVals xs) = true)
    (hl : locatedL (Obj.ofVals xs) = true) : unastifyL H (Obj.ofVals cs) = pure (Obj.ofVals xs) := by
  match xs with
  | [] => rw [CodesL] at h; subst h; rfl
  | x :: xs =>
    rw [CodesL] at h
    simp only [Obj.ofVals, locatedL, Bool.and_eq_true] at hl
    simp only [Obj.ofVals, parsedL, Bool.and_eq_true] at hp
    obtain ⟨c, cs', rfl, h1, h2⟩ := h
    simp only [Obj.ofVals, Quotes.unastifyL, Codes.unastify H x c h1 hp.1 hl.1, CodesL.unastifyL H xs cs' h2 hp.2 hl.2, M.pure_bind']
theorem CodesF.unastifyPairs (H : Host σ) (fs : List (F × Val)) (cs : List Val) (h : CodesF fs cs)
    (hp : parsedF (Obj.ofFields fs) = true) (hl : locatedF (Obj.ofFields fs) = true) :
    unastifyPairs H (Obj.ofVals cs) = pure ((Obj.ofFields fs).map fun p => (.str p.1.text, p.2)) := by
  match fs with
  | [] => rw [CodesF] at h; subst h; rfl
  | (f, x) :: r =>
    rw [CodesF] at h
    simp only [Obj.ofFields, locatedF, Bool.and_eq_true] at hl
    simp only [Obj.ofFields, parsedF, Bool.and_eq_true] at hp
    obtain ⟨c, l, cs', rfl, h1, h2⟩ := h
    have e : Quotes.unastifyPairs H (Obj.ofVals (.node (.py .keyword) l [(.arg, .str f.text), (.value, c)] :: cs')) = (do
      let v ← Quotes.unastify H (.ofVal c)
      return (.str f.text, v) :: (← Quotes.unastifyPairs H (Obj.ofVals cs'))) := rfl
    rw [e, Codes.unastify H x c h1 hp.1 hl.1, M.pure_bind', CodesF.unastifyPairs H r cs' h2 hp.2 hl.2, M.pure_bind']
    rfl
end

end Mcpyrate.QuoteOps
