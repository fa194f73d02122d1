import Verif.Spec.ExpandFirst
import Verif.Lemmas.ExpanderAgain
import Verif.Lemmas.ExpanderRuns
import Verif.Lemmas.ExpanderKept
import Verif.Lemmas.ExpanderMono
import Verif.Lemmas.DictFilter
/-
Lemmas about `expand_first`.
-/
namespace Mcpyrate.Expander
open Py

variable {υ : Type} {E : Env υ}

/-- When user code keeps the bindings: the bindings are kept, and what is applied directly is what the name is bound to. -/
def BoundNow (s s' : St υ) : Prop :=
  Deep s s' ∧ bindings s'.world = bindings s.world ∧
    ∀ e ∈ fresh s s', e.depth = s.depth → isbound s.world e.name = some e.fn

theorem boundNow_step : Step (BoundNow (υ := υ)) where
  refl s := ⟨deep_rel.refl s, rfl, by simp [fresh_self]⟩
  trans := by
    rintro a b c ⟨h1, h2, h3⟩ ⟨g1, g2, g3⟩
    refine ⟨deep_rel.trans h1 g1, g2.trans h2, fun e he hd => ?_⟩
    rw [fresh_trans h1.1 g1.1, List.mem_append] at he
    rcases he with he | he
    · exact h3 e he hd
    · rw [← bindings_isbound h2]; exact g3 e he (by rw [h1.1.depth]; exact hd)
  log s x h1 h2 h3 h4 := by
    refine ⟨deep_rel.log s x h1 h2 h3 h4, rfl, fun e he _ => ?_⟩
    simp [fresh] at he
    rw [he]; exact h4
  mode := by
    rintro s s' b ⟨h1, h2, h3⟩
    exact ⟨deep_rel.mode s s' b h1, h2, h3⟩

theorem visit_boundNow (hE : E.Keeps bindings) (n : Nat) (t : Val) : Pres BoundNow (visit E n t) := by
  refine visit_pres_of boundNow_step (fun vis hv => ?_) n t
  have hd : ∀ t, Pres Deep (vis t) := fun t s => (hv t s).mono fun _ _ h => h.1
  have hk : ∀ t, Pres (fun s s' : St υ => bindings s'.world = bindings s.world) (vis t) :=
    fun t s => (hv t s).mono fun _ _ h => h.2.1
  have hu := keeps_user bindings_local hE vis hk
  have key : ∀ p : Prog υ, ∀ s, M.Post (runNested vis p) s fun _ s' => Deep s s' ∧ ∀ e ∈ fresh s s', s.depth < e.depth := by
    intro p s
    unfold runNested
    rw [M.post_bracket]
    refine (run_pres deep_rel hd p p.all_true _).mono ?_
    rintro _ s' h
    exact ⟨deep_rel.depth s s' h, h.2⟩
  constructor
  · intro i a s hs r s' h
    obtain ⟨h1, h2⟩ := key _ s r s' h
    exact ⟨h1, hu.macros i a s hs r s' h, fun e he hd => absurd hd (by have := h2 e he; omega)⟩
  · intro i t r n s hs r s' h
    obtain ⟨h1, h2⟩ := key _ s r s' h
    exact ⟨h1, hu.hooks i t _ n s hs r s' h, fun e he hd => absurd hd (by have := h2 e he; omega)⟩

theorem names_bound {w w' : World υ} (h : ∀ k, isbound w' k = isbound w k) {t : Val} : Names E w' t ↔ Names E w t := by
  unfold Names Accepts
  simp only [h]

theorem invocation_bound {w w' : World υ} (h : ∀ k, isbound w' k = isbound w k) {t : Val} (hi : Invocation E w' t) :
    Invocation E w t := by
  cases hi with
  | expr h1 h2 h3 => exact .expr h1 h2 ((names_bound h).mp h3)
  | block h1 h2 h3 h4 h5 => exact .block h1 h2 h3 h4 ((names_bound h).mp h5)
  | decorator h1 h2 h3 h4 => exact .decorator h1 h2 h3 ((names_bound h).mp h4)
  | name h1 h2 h3 h4 h5 => exact .name h1 h2 h3 (by rw [← h]; exact h4) h5

theorem AgreeTop.mono {A B : Val → Prop} (h : ∀ u, A u → B u) {t r : Val} (ht : AgreeTop A t r) : AgreeTop B t r := by
  unfold AgreeTop at ht ⊢
  split at ht
  · rcases ht with ht | ⟨ys, h1, h2⟩
    · exact .inl ht
    · exact .inr ⟨ys, h1.mono h, h2⟩
  · exact Agree.mono h ht

theorem get?_item {t v : Val} {f : F} {xs : List Val} (h : t.get? f = some (.list xs)) (hm : v ∈ xs) (hv : v.isAST = true) :
    Child t v := by
  cases t with
  | node c l fs =>
    obtain ⟨a, b, hab, -⟩ := List.lookup_eq_some_iff.mp (show List.lookup f fs = _ from h)
    exact .item (f := f) (by rw [hab]; simp) hm hv
  | _ => cases h

theorem get?_isAST {t v : Val} {f : F} (h : t.get? f = some v) : t.isAST = true := by
  cases t with
  | node => rfl
  | _ => cases h

theorem Candidate.name {c : Val} {k : String} {as : List Val} (h : Candidate c k as) :
    c.isAST = true ∧ ∃ x, Reach c x ∧ x.isK .Name = true ∧ x.get? .id = some (.str k) := by
  cases h with
  | plain h1 h2 => exact ⟨isK_isAST h1, _, .refl _, h1, h2⟩
  | bracket h1 h2 h3 h4 => exact ⟨isK_isAST h1, _, .step (childNodes_child (get?_child h2 (isK_isAST h3))) (.refl _), h3, h4⟩
  | brackets h1 h2 h3 h4 => exact ⟨isK_isAST h1, _, .step (childNodes_child (get?_child h2 (isK_isAST h3))) (.refl _), h3, h4⟩
  | parens h1 h2 h3 h4 => exact ⟨isK_isAST h1, _, .step (childNodes_child (get?_child h2 (isK_isAST h3))) (.refl _), h3, h4⟩

/-- In an invocation there is the name of a macro. -/
theorem Invocation.name_in {w : World υ} {u : Val} (h : Invocation E w u) :
    ∃ x k, Reach u x ∧ x.isK .Name = true ∧ x.get? .id = some (.str k) ∧ (isbound w k).isSome = true := by
  have key : ∀ {c}, Names E w c → c.isAST = true ∧
      ∃ x k, Reach c x ∧ x.isK .Name = true ∧ x.get? .id = some (.str k) ∧ (isbound w k).isSome = true := by
    rintro c ⟨k, as, id, hc, -, hb, -⟩
    obtain ⟨h1, x, h2, h3, h4⟩ := hc.name
    exact ⟨h1, x, k, h2, h3, h4, by rw [hb]; rfl⟩
  cases h with
  | expr h1 h2 h3 =>
    obtain ⟨ha, x, k, hx, hr⟩ := key h3
    exact ⟨x, k, .step (childNodes_child (get?_child h2 ha)) hx, hr⟩
  | block h1 h2 h3 h4 h5 =>
    obtain ⟨ha, x, k, hx, hr⟩ := key h5
    exact ⟨x, k, .step (get?_item h2 h3 (get?_isAST h4)) (.step (childNodes_child (get?_child h4 ha)) hx), hr⟩
  | decorator h1 h2 h3 h4 =>
    obtain ⟨ha, x, k, hx, hr⟩ := key h4
    exact ⟨x, k, .step (get?_item h2 h3 ha) hx, hr⟩
  | name h1 h2 h3 h4 h5 => exact ⟨_, _, .refl _, h1, h2, by rw [h4]; rfl⟩

/-- The names in a tree. -/
def nameOf (t : Val) : List String :=
  if t.isK .Name then
    match t.get? .id with
    | some (.str k) => [k]
    | _ => []
  else []

theorem noInvocation_names {w : World υ} {t : Val} (h : ∀ k ∈ (preorder t).flatMap nameOf, isbound w k = none) (u : Val)
    (hu : Reach t u) : ¬ Invocation E w u := by
  intro hi
  obtain ⟨x, k, h1, h2, h3, h4⟩ := hi.name_in
  have : x ∈ preorder t := reach_mem_preorder (hu.trans h1) (isK_isAST h2)
  rw [h k (List.mem_flatMap.mpr ⟨x, this, by unfold nameOf; rw [if_pos h2, h3]; simp⟩)] at h4
  cases h4
theorem run_visitNew_iff {vis : Val → X υ Val} {b : Dict String Nat} {t : Val} {k : Except Exc Val → Prog υ}
    {s s' : St υ} {o : Except Exc Ret} : run vis (.visitNew b t k) s = some (o, s') ↔
    ∃ r s1, vis t { s with recursive := true, hook := none, world := { s.world with locals := b } } = some (r, s1) ∧
      run vis (k r) { s1 with recursive := s.recursive, hook := s.hook,
                              world := { s1.world with locals := s.world.locals } } = some (o, s') := by
  change M.bind (M.attempt (M.bracket _ _ (vis t))) _ s = _ ↔ _
  simp only [M.bind, M.attempt, M.bracket]
  cases hv : vis t { s with recursive := true, hook := none, world := { s.world with locals := b } } with
  | none => simp
  | some p =>
    obtain ⟨r, s1⟩ := p
    constructor
    · intro h; exact ⟨r, s1, rfl, h⟩
    · rintro ⟨r', s1', h1, h2⟩; cases h1; exact h2

theorem run_visitNew_of {vis : Val → X υ Val} {b : Dict String Nat} {t : Val} {k : Except Exc Val → Prog υ}
    {s s1 : St υ} {r : Except Exc Val}
    (h : vis t { s with recursive := true, hook := none, world := { s.world with locals := b } } = some (r, s1)) :
    run vis (.visitNew b t k) s = run vis (k r)
      { s1 with recursive := s.recursive, hook := s.hook, world := { s1.world with locals := s.world.locals } } := by
  change M.bind (M.attempt (M.bracket _ _ (vis t))) _ s = _
  simp only [M.bind, M.attempt, M.bracket]
  rw [h]

end Mcpyrate.Expander

namespace Mcpyrate.ExpandFirst
open Py Expander

variable {υ : Type} {E : Env υ}

theorem get_allBindings {w : World υ} (hl : Dict.WF w.locals) (k : String) : Dict.get (allBindings w) k = isbound w k :=
  Dict.get_update _ _ hl k

theorem isbound_all {w : World υ} (hl : Dict.WF w.locals) (k : String) :
    isbound { w with locals := allBindings w } k = isbound w k := by
  show (Dict.get (allBindings w) k).or _ = _
  rw [get_allBindings hl]
  unfold isbound
  cases Dict.get w.locals k <;> cases Dict.get w.globals k <;> rfl

theorem second {w : World υ} (hl : Dict.WF w.locals) (hg : Dict.WF w.globals) (fs : List Nat) :
    Second w { w with locals := ExtractBindings.extractBindings (allBindings w) fs } fs := by
  refine ⟨rfl, rfl, fun k f => ?_⟩
  show ((Dict.get (List.filter _ (allBindings w)) k).or (Dict.get w.globals k)) = some f ↔ _
  rw [Dict.get_filter _ _ (show Dict.WF (allBindings w) from Dict.WF_update _ _ hg), get_allBindings hl]
  unfold Sees
  cases hb : isbound w k with
  | none => simp [Option.filter]
  | some g =>
    by_cases hm : g ∈ fs
    · simp only [Option.filter_some, hm, decide_true, if_true, Option.some_or, Option.some.injEq]
      constructor
      · rintro rfl; exact .inl ⟨rfl, hm⟩
      · rintro (⟨h, -⟩ | ⟨h, -⟩)
        · exact h
        · exact absurd rfl (h g hm)
    · simp only [Option.filter_some, hm, decide_false, Bool.false_eq_true, if_false, Option.none_or, Option.some.injEq]
      constructor
      · intro h; exact .inr ⟨fun f hf e => hm (Option.some.inj e ▸ hf), h⟩
      · rintro (⟨rfl, h⟩ | ⟨-, h⟩)
        · exact absurd h hm
        · exact h

theorem Second.same {w w2 w3 : World υ} {fs : List Nat} (h2 : Second w w2 fs) (h3 : Second w w3 fs) (k : String) :
    isbound w3 k = isbound w2 k := by
  apply Option.ext
  intro f
  rw [h3.bound, h2.bound]

theorem lookUp_some {w : World υ} {t : Val} {f : Nat} (h : macroOf w t = some f) : lookUp w t = .ok (some f) := by
  unfold macroOf at h
  split at h
  · unfold lookUp Expander.attr
    split at h
    · rename_i k hk
      rw [hk]
      show Except.ok (isbound w k) = _
      rw [h]
    · cases h
  · cases h

theorem lookUp_none {w : World υ} {t i : Val} (hk : t.isK .Name = true) (hi : t.get? .id = some i)
    (h : macroOf w t = none) : lookUp w t = .ok none := by
  unfold macroOf at h
  rw [if_pos hk] at h
  unfold lookUp Expander.attr
  rw [hi] at h ⊢
  show Except.ok (match asName i with | some k => isbound w k | none => none) = _
  cases ha : asName i with
  | none => rfl
  | some k =>
    unfold asName at ha
    split at ha
    · cases ha; dsimp only at h ⊢; rw [h]
    · cases ha

theorem macroOf_isK {w : World υ} {t : Val} {f : Nat} (h : macroOf w t = some f) : t.isK .Name = true := by
  unfold macroOf at h
  split at h
  · assumption
  · cases h

theorem macroOf_some {w : World υ} {t : Val} {f : Nat} (h : macroOf w t = some f) :
    ∃ k, t.get? .id = some (.str k) ∧ isbound w k = some f := by
  unfold macroOf at h
  split at h
  · split at h
    · exact ⟨_, by assumption, h⟩
    · cases h
  · cases h

theorem isK_inj {t : Val} {a b : K} (ha : t.isK a = true) (hb : t.isK b = true) : a = b := by
  cases t with
  | node c l fs =>
    cases c with
    | py k => simp only [Val.isK, beq_iff_eq] at ha hb; rw [ha, hb]
    | marker m => simp [Val.isK] at ha
  | _ => simp [Val.isK] at ha

theorem name_node {t : Val} {k : K} (hk : t.isK k = true) : ∃ l fs, t = .node (.py k) l fs := by
  cases t with
  | node c l fs =>
    cases c with
    | py k' => simp only [Val.isK, beq_iff_eq] at hk; subst hk; exact ⟨l, fs, rfl⟩
    | marker m => simp [Val.isK] at hk
  | _ => simp [Val.isK] at hk

theorem name_notDone {t : Val} (hk : t.isK .Name = true) : isDone t = false := by
  obtain ⟨l, fs, rfl⟩ := name_node hk
  rfl

theorem name_fieldsOk {t : Val} (hk : t.isK .Name = true) (h : fieldsOk t = true) : hasField t .id = true := by
  obtain ⟨l, fs, rfl⟩ := name_node hk
  exact h

/-- The name of a macro that is not an identifier macro is not an invocation. -/
theorem macroOf_notInvocation {w w' : World υ} (hw : ∀ k, isbound w' k = isbound w k) {t : Val} {f : Nat}
    (h : macroOf w t = some f) (hf : (E.macros f).isName = false) : ¬ Invocation E w' t := by
  have hk := macroOf_isK h
  obtain ⟨k, hi, hb⟩ := macroOf_some h
  intro hinv
  cases hinv with
  | expr h1 => cases isK_inj hk h1
  | block h1 => cases isK_inj hk h1
  | decorator h1 => rcases h1 with h1 | h1 <;> cases isK_inj hk h1
  | name _ h2 _ h4 h5 =>
    rw [hi] at h2
    cases h2
    rw [hw, hb] at h4
    cases h4
    rw [hf] at h5; cases h5

theorem functions_ok {w : World υ} {args : List Val} {fs : List Nat} (h : args.map (macroOf w) = fs.map some) :
    functions w args = .ok fs := by
  have hall : ∀ t ∈ args, ∃ f, macroOf w t = some f := by
    intro t ht
    have : macroOf w t ∈ fs.map some := h ▸ List.mem_map_of_mem ht
    obtain ⟨f, -, e⟩ := List.mem_map.mp this
    exact ⟨f, e.symm⟩
  have h1 : args.any (fun t => !t.isK .Name) = false := by
    rw [List.any_eq_false]
    intro t ht
    obtain ⟨f, hf⟩ := hall t ht
    simp [macroOf_isK hf]
  have h2 : lookUpAll w args = .ok (fs.map some) := by
    rw [← h]
    clear h h1
    induction args with
    | nil => rfl
    | cons t ts ih =>
      obtain ⟨f, hf⟩ := hall t (by simp)
      unfold lookUpAll
      rw [lookUp_some hf, ih fun t ht => hall t (by simp [ht]), List.map_cons, hf]
      rfl
  unfold functions
  rw [h1, h2]
  have h3 : (fs.map some).any Option.isNone = false := by simp
  have h4 : (fs.map some).filterMap id = fs := by simp [List.filterMap_map]
  show (if (fs.map some).any Option.isNone = true then _ else pure ((fs.map some).filterMap id)) = _
  rw [h3, h4]
  rfl

theorem lookUpAll_some {w : World υ} : ∀ {args : List Val}, (∀ t ∈ args, t.isK .Name = true ∧ (t.get? .id).isSome = true) →
    lookUpAll w args = .ok (args.map (macroOf w))
  | [], _ => rfl
  | t :: ts, h => by
    unfold lookUpAll
    rw [lookUpAll_some fun t ht => h t (by simp [ht])]
    obtain ⟨hk, hi⟩ := h t (by simp)
    obtain ⟨i, hi⟩ := Option.isSome_iff_exists.mp hi
    have : lookUp w t = .ok (macroOf w t) := by
      cases hm : macroOf w t with
      | none => exact lookUp_none hk hi hm
      | some f => exact lookUp_some hm
    rw [this]
    rfl

/-- Arguments that are not all names of macros are rejected. -/
theorem functions_error {w : World υ} {args : List Val} (hid : ∀ t ∈ args, t.isK .Name = true → (t.get? .id).isSome = true)
    (h : ∃ t ∈ args, macroOf w t = none) : functions w args = .error (.py .syntaxError) := by
  unfold functions
  cases ha : args.any (fun t => !t.isK .Name) with
  | true => rfl
  | false =>
    rw [List.any_eq_false] at ha
    have hall : ∀ t ∈ args, t.isK .Name = true ∧ (t.get? .id).isSome = true := by
      intro t ht
      have := ha t ht
      have hk : t.isK .Name = true := by simpa using this
      exact ⟨hk, hid t ht hk⟩
    rw [lookUpAll_some hall]
    obtain ⟨t, ht, hn⟩ := h
    have h3 : (args.map (macroOf w)).any Option.isNone = true := by
      rw [List.any_eq_true]
      exact ⟨macroOf w t, List.mem_map_of_mem ht, by rw [hn]; rfl⟩
    show (if (args.map (macroOf w)).any Option.isNone = true then _ else _) = _
    rw [h3]
    rfl

theorem run_get' {vis : Val → X υ Val} {k : Bool → World υ → Prog υ} {s : St υ} :
    run vis (.get k) s = run vis (k s.recursive s.world) s := rfl

/-- Visiting names that are not identifier macros. -/
theorem visit_names {n : Nat} {args : List Val} {s : St υ} (hne : args ≠ []) (hn : 2 ≤ n) (hb : noBindings s.world = false)
    (h : ∀ t ∈ args, t.isK .Name = true ∧ (t.get? .id).isSome = true ∧ ¬ Invocation E s.world t) :
    visit E n (.list args) s = some (.ok (.list args), s) := by
  obtain ⟨m, rfl⟩ : ∃ m, n = m + 2 := ⟨n - 2, by omega⟩
  have hv : ∀ t ∈ args, visit E (m + 1) t s = some (.ok t, s) := by
    intro t ht
    obtain ⟨hk, hi, hni⟩ := h t ht
    obtain ⟨l, fs, rfl⟩ : ∃ l fs, t = .node (.py .Name) l fs := by
      cases t with
      | node c l fs =>
        cases c with
        | py k => simp only [Val.isK, beq_iff_eq] at hk; subst hk; exact ⟨l, fs, rfl⟩
        | marker m => simp [Val.isK] at hk
      | _ => simp [Val.isK] at hk
    obtain ⟨i, hi⟩ := Option.isSome_iff_exists.mp hi
    rw [visit_node rfl rfl hb]
    show visitName E (visit E m) _ s = _
    unfold visitName Expander.attr
    rw [hi]
    have hf : ismacrocall E s.world ((asName i).map (·, ([] : List Val))) .name = false := by
      cases ha : asName i with
      | none => rfl
      | some k =>
        have hik : i = .str k := by
          unfold asName at ha
          split at ha
          · cases ha; rfl
          · cases ha
        show (if k = "" then false else _) = false
        split
        · rfl
        · cases hbk : isbound s.world k with
          | none => rfl
          | some f =>
            dsimp only
            cases hN : (E.macros f).isName with
            | false => rfl
            | true => exact absurd (.name rfl (hi.trans (by rw [hik])) (by assumption) hbk hN) hni
    show (if ismacrocall E s.world ((asName i).map (·, ([] : List Val))) .name = true then (_ : X υ Val) else (_ : X υ Val)) s = _
    rw [hf]
    rfl
  show visitBody E (visit E (m + 1)) (.list args) s = _
  unfold visitBody
  rw [run_get, hb]
  have hd : isDone (.list args) = false := rfl
  rw [hd]
  show (visitElts (visit E (m + 1)) args >>= _) s = _
  rw [run_bind (visitElts_same hv)]
  have hall : args.all Val.isAST = true := by
    rw [List.all_eq_true]
    intro t ht
    exact isK_isAST (h t ht).1
  rw [flattenV_nodes hall]
  cases args with
  | nil => exact absurd rfl hne
  | cons => rfl

end Mcpyrate.ExpandFirst
