import Verif.Spec.Quasiquote
import Verif.Lemmas.QuoteItems
import Verif.Lemmas.Captures
import Verif.Lemmas.QuoteNest
/-
What quasiquoted code evaluates to (C58).
-/
namespace Mcpyrate.Quotes
open Py

variable {σ : Type} {H : Host σ}

/-! ### values as expressions -/

theorem runDict_pure : ∀ (ks vs xs ys : List Obj), (∀ (i : Nat) k, ks[i]? = some k → ∃ x, xs[i]? = some x ∧ meaning H k = pure x) →
    (∀ (i : Nat) v, vs[i]? = some v → ∃ y, ys[i]? = some y ∧ meaning H v = pure y) → ks.length = vs.length →
    xs.length = ks.length → ys.length = vs.length →
    runDict (meanings H ks) (meanings H vs) = pure ((xs.map some).zip ys)
  | [], [], [], [], _, _, _, _, _ => rfl
  | k :: ks, v :: vs, x :: xs, y :: ys, hk, hv, hl, h1, h2 => by
    obtain ⟨x', hx, hkx⟩ := hk 0 k rfl
    obtain ⟨y', hy, hvy⟩ := hv 0 v rfl
    cases hx; cases hy
    rw [meanings, meanings, runDict, hkx, M.pure_bind', hvy, M.pure_bind',
      runDict_pure ks vs xs ys (fun i k h => hk (i + 1) k h) (fun i v h => hv (i + 1) v h) (by simpa using hl)
        (by simpa using h1) (by simpa using h2)]
    rfl
  | [], _ :: _, _, _, _, _, h, _, _ => by cases h
  | _ :: _, [], _, _, _, _, h, _, _ => by cases h
  | [], _, _ :: _, _, _, _, _, h, _ => by cases h
  | _ :: _, _, [], _, _, _, _, h, _ => by cases h
  | _, [], _, _ :: _, _, _, _, _, h => by cases h
  | _, _ :: _, _, [], _, _, _, _, h => by cases h

theorem noLocL_length : ∀ (xs : List Obj), (noLocL xs).length = xs.length
  | [] => rfl
  | x :: xs => by simp [noLocL, noLocL_length xs]

mutual
theorem Data.template {v : Obj} (h : Data H v) : template none v = true ∧ meaning H v = pure (noLoc v) := by
  match v, h with
  | _, .const (c := c) h =>
    refine ⟨?_, rfl⟩
    cases c <;> first | rfl | exact absurd rfl (h _)
  | _, .list h =>
    obtain ⟨h1, h2, -⟩ := h.template
    exact ⟨by simpa [Quotes.template] using h1, by rw [meaning, h2, M.pure_bind', noLoc]⟩
  | _, .tuple h =>
    obtain ⟨h1, h2, -⟩ := h.template
    exact ⟨by simpa [Quotes.template] using h1, by rw [meaning, h2, M.pure_bind', noLoc]⟩
  | _, .set h hm =>
    obtain ⟨h1, h2, -⟩ := h.template
    exact ⟨by simpa [Quotes.template] using h1, by rw [meaning, h2, M.pure_bind', hm, noLoc]; rfl⟩
  | _, .dict (ks := ks) (vs := vs) hk hv hl hm =>
    obtain ⟨h1, -, h2⟩ := hk.template
    obtain ⟨h3, -, h4⟩ := hv.template
    refine ⟨by simp [Quotes.template, h1, h3], ?_⟩
    rw [meaning, runDict_pure ks vs (noLocL ks) (noLocL vs) h2 h4 hl (noLocL_length _) (noLocL_length _), M.pure_bind', hm, noLoc]
    rfl
  | _, .tree hp hc => exact ⟨parsed_template none _ hp hc, meaning_parsed H _ hp⟩
termination_by structural h
theorem DataL.template {vs : List Obj} (h : DataL H vs) : templateL none vs = true ∧ meaningL H vs = pure (noLocL vs) ∧
    ∀ (i : Nat) v, vs[i]? = some v → ∃ x, (noLocL vs)[i]? = some x ∧ meaning H v = pure x := by
  match vs, h with
  | _, .nil => exact ⟨rfl, rfl, fun i v h => by simp at h⟩
  | _, .cons h hs =>
    obtain ⟨h1, h2⟩ := h.template
    obtain ⟨h3, h4, h5⟩ := hs.template
    refine ⟨by simp [templateL, h1, h3], by rw [meaningL, h2, M.pure_bind', h4, M.pure_bind', noLocL], ?_⟩
    intro i v hv
    cases i with
    | zero => cases hv; exact ⟨_, rfl, h2⟩
    | succ i => exact h5 i v hv
termination_by structural h
end

/-- The code for a value evaluates to the value. -/
theorem Data.astify (hH : Imported H) {v r : Obj} {s s' : St σ} (h : Data H v)
    (ha : astify H none v s = some (.ok r, s')) : s' = s ∧ ∀ s, Evaluates H r s (noLoc v) s := by
  obtain ⟨code, h1, -, h2⟩ := compile hH none v h.template.1
  rw [h1] at ha
  cases ha
  refine ⟨rfl, fun s => ?_⟩
  show eval H r s = _
  rw [h2, h.template.2]
  rfl

theorem astifyL_all {B : Option (String → Option Obj)} {x : Obj} {xs : List Obj} (hx : x ∈ xs)
    (hn : ∀ r (s s' : St σ), Quotes.astify H B x s ≠ some (.ok r, s')) {rs : List Obj} {s s' : St σ} :
    astifyL H B xs s ≠ some (.ok rs, s') := by
  induction xs generalizing rs s s' with
  | nil => cases hx
  | cons y ys ih =>
    intro h
    unfold astifyL at h
    obtain ⟨z, s1, h1, h2⟩ := M.bind_some h
    obtain ⟨zs, s2, h3, h4⟩ := M.bind_some h2
    cases hx with
    | head => exact hn _ _ _ h1
    | tail _ hx => exact ih hx h3

theorem astifyF_all {B : Option (String → Option Obj)} {f : F} {x : Obj} {xs : List (F × Obj)} (hx : (f, x) ∈ xs)
    (hn : ∀ r (s s' : St σ), Quotes.astify H B x s ≠ some (.ok r, s')) {rs : List Obj} {s s' : St σ} :
    astifyF H B xs s ≠ some (.ok rs, s') := by
  induction xs generalizing rs s s' with
  | nil => cases hx
  | cons y ys ih =>
    intro h
    obtain ⟨g, y⟩ := y
    unfold astifyF at h
    obtain ⟨z, s1, h1, h2⟩ := M.bind_some h
    obtain ⟨zs, s2, h3, h4⟩ := M.bind_some h2
    cases hx with
    | head => exact hn _ _ _ h1
    | tail _ hx => exact ih hx h3

/-- There is no code for these values. -/
theorem Refused.astify {B : Option (String → Option Obj)} {v r : Obj} {s s' : St σ} (h : Refused v) :
    Quotes.astify H B v s ≠ some (.ok r, s') := by
  induction h generalizing r s s' with
  | complex => intro h; rw [Quotes.astify] at h; cases h
  | ref => intro h; rw [Quotes.astify] at h; cases h
  | ext => intro h; rw [Quotes.astify] at h; cases h
  | list hx _ ih =>
    intro h
    rw [Quotes.astify] at h
    obtain ⟨z, s1, h1, h2⟩ := M.bind_some h
    exact astifyL_all hx (fun _ _ _ => ih) h1
  | tuple hx _ ih =>
    intro h
    rw [Quotes.astify] at h
    obtain ⟨z, s1, h1, h2⟩ := M.bind_some h
    exact astifyL_all hx (fun _ _ _ => ih) h1
  | set hx _ ih =>
    intro h
    rw [Quotes.astify] at h
    obtain ⟨z, s1, h1, h2⟩ := M.bind_some h
    exact astifyL_all hx (fun _ _ _ => ih) h1
  | key hx _ ih =>
    intro h
    rw [Quotes.astify] at h
    obtain ⟨z, s1, h1, h2⟩ := M.bind_some h
    exact astifyL_all hx (fun _ _ _ => ih) h1
  | value hx _ ih =>
    intro h
    rw [Quotes.astify] at h
    obtain ⟨z, s1, h1, h2⟩ := M.bind_some h
    obtain ⟨z, s1, h1, h2⟩ := M.bind_some h2
    exact astifyL_all hx (fun _ _ _ => ih) h1
  | field hx _ ih =>
    intro h
    rw [Quotes.astify] at h
    obtain ⟨z, s1, h1, h2⟩ := M.bind_some h
    exact astifyF_all hx (fun _ _ _ => ih) h1

/-- `m` ends, and does not change the state. -/
def Quiet {α : Type} (m : Q σ α) : Prop := ∀ s, ∃ o, m s = some (o, s)

theorem Quiet.bind {α β : Type} {m : Q σ α} {f : α → Q σ β} (h : Quiet m) (hf : ∀ a, Quiet (f a)) : Quiet (m >>= f) := by
  intro s
  obtain ⟨o, h1⟩ := h s
  change ∃ o, M.bind m f s = _
  simp only [M.bind, h1]
  cases o with
  | error e => exact ⟨_, rfl⟩
  | ok a => exact hf a s

theorem Quiet.pure {α : Type} (a : α) : Quiet (pure a : Q σ α) := fun _ => ⟨_, rfl⟩
theorem Quiet.throw {α : Type} (e : Err) : Quiet (M.throw e : Q σ α) := fun _ => ⟨_, rfl⟩
theorem Quiet.lift {α : Type} (x : Except Err α) : Quiet (Quotes.lift x : Q σ α) := fun _ => by
  cases x <;> exact ⟨_, rfl⟩

mutual
/-- Without an expander, `astify` ends and does not change the state. -/
theorem astify_quiet (v : Obj) : Quiet (Quotes.astify H none v) := by
  match v with
  | .const c => cases c <;> (rw [Quotes.astify]; · first | exact .pure _ | exact .throw _) <;> simp
  | .list xs => rw [Quotes.astify]; exact (astifyL_quiet xs).bind fun _ => .pure _
  | .tuple xs => rw [Quotes.astify]; exact (astifyL_quiet xs).bind fun _ => .pure _
  | .set xs => rw [Quotes.astify]; exact (astifyL_quiet xs).bind fun _ => .pure _
  | .dict ks vs =>
    rw [Quotes.astify]
    exact (astifyL_quiet ks).bind fun _ => (astifyL_quiet vs).bind fun _ => .pure _
  | .ref _ => rw [Quotes.astify]; exact .throw _
  | .ext _ => rw [Quotes.astify]; exact .throw _
  | .node (.py k) l fs => rw [Quotes.astify]; exact (astifyF_quiet fs).bind fun _ => .pure _
  | .node (.marker n) l fs =>
    rw [Quotes.astify]
    split
    · exact (Quiet.lift _).bind fun _ => .pure _
    split
    · refine (Quiet.lift _).bind fun _ => (Quiet.lift _).bind fun _ => ?_
      split
      · exact .pure _
      · exact .throw _
    split
    · refine (Quiet.lift _).bind fun _ => (Quiet.lift _).bind fun _ => ?_
      split
      · exact .pure _
      · exact .throw _
    split
    · exact (Quiet.lift _).bind fun _ => .pure _
    split
    · exact (Quiet.lift _).bind fun _ => .pure _
    split
    · refine (Quiet.lift _).bind fun _ => ?_
      simp only [captured]
      refine (Quiet.lift _).bind fun _ => ?_
      split
      · exact .pure _
      · exact .throw _
    split
    · exact (astifyF_quiet fs).bind fun _ => .pure _
    · exact .throw _
theorem astifyL_quiet (xs : List Obj) : Quiet (astifyL H none xs) := by
  match xs with
  | [] => rw [astifyL]; exact .pure _
  | x :: xs => rw [astifyL]; exact (astify_quiet x).bind fun _ => (astifyL_quiet xs).bind fun _ => .pure _
theorem astifyF_quiet (xs : List (F × Obj)) : Quiet (astifyF H none xs) := by
  match xs with
  | [] => rw [astifyF]; exact .pure _
  | (f, x) :: xs => rw [astifyF]; exact (astify_quiet x).bind fun _ => (astifyF_quiet xs).bind fun _ => .pure _
end

theorem astify_state {v r : Obj} {s s' : St σ} (h : Quotes.astify H none v s = some (.ok r, s')) : s' = s := by
  obtain ⟨o, h1⟩ := astify_quiet (H := H) v s
  rw [h1] at h
  cases h
  rfl

theorem unquote_refused (hH : Imported H) {E : Option (String → Option Obj)} {l : Loc} {e code v : Obj}
    {st0 st0' st st1 : St σ} (he : e.isK .Starred = false)
    (hc : Quotes.astify H E (.node (.marker "Unquote") l [(.body, e)]) st0 = some (.ok code, st0'))
    (hv : Evaluates H e st v st1) (hr : Refused v) : ∃ err, eval H code st = some (.error err, st1) := by
  obtain ⟨code', h1, -, h2⟩ := compile hH E (.node (.marker "Unquote") l [(.body, e)]) (by simp [template, he])
  rw [h1] at hc
  cases hc
  rw [h2, meaning.eq_def]
  dsimp only
  rw [if_neg (by decide)]
  change eval H e st = _ at hv
  change ∃ err, M.bind (eval H e) _ st = _
  simp only [M.bind, hv, if_pos]
  obtain ⟨o, h3⟩ := astify_quiet (H := H) v st1
  cases o with
  | error err => exact ⟨err, h3⟩
  | ok r => exact absurd h3 hr.astify

/-! ### from the recursive description to the relation -/

theorem items_of {p : K → Bool} {v : Obj} {ys : List Obj} (h : flattenAndTypecheck H p v = .ok ys) : Items H p v ys :=
  flattenAndTypecheck_iff.1 h

theorem lift_bind_some {α : Type} {m : Q σ Obj} {f : Obj → Except Err α} {s s' : St σ} {b : α}
    (h : (do let v ← m; lift (f v) : Q σ α) s = some (.ok b, s')) : ∃ v, m s = some (.ok v, s') ∧ f v = .ok b := by
  obtain ⟨v, s1, h1, h2⟩ := M.bind_some h
  obtain ⟨h3, rfl⟩ := lift_some h2
  exact ⟨v, h1, h3⟩

theorem typecheck_node {p : K → Bool} {x : Obj} (h : typecheck p x = .ok ()) : OfKind p x := typecheck_kind x h

/-- The commands. -/
theorem means_marker (hH : Imported H) {E : Option (String → Option Obj)} {n : String} {l : Loc} {fs : List (F × Obj)} {r : Obj}
    {st st' : St σ} (hn : n ≠ "Done") (ht : template E (.node (.marker n) l fs) = true)
    (h : meaning H (.node (.marker n) l fs) st = some (.ok r, st')) : Means H (.node (.marker n) l fs) st r st' := by
  rw [template.eq_def] at ht
  rw [meaning.eq_def] at h
  dsimp only at h ht
  rw [if_neg hn] at ht
  rw [if_neg hn] at h
  split at ht
  · rename_i e
    dsimp only at h
    simp only [Bool.and_eq_true, Bool.or_eq_true, decide_eq_true_eq] at ht
    obtain ⟨v, s1, h1, h2⟩ := M.bind_some h
    rcases ht.1 with (rfl | rfl) | rfl
    · rw [if_pos rfl] at h2
      by_cases hd : Data H v
      · obtain ⟨rfl, h3⟩ := hd.astify hH h2
        exact .u h1 hd h3
      · rw [astify_state h2]
        exact .other h1 hd (fun hr => hr.astify h2)
    · rw [if_neg (by decide), if_pos rfl] at h2
      obtain ⟨h3, rfl⟩ := lift_some h2
      unfold astList at h3
      rw [Ex.bind_ok] at h3
      obtain ⟨ys, h4, h5⟩ := h3
      cases Ex.pure_ok.1 h5
      exact .s h1 (items_of h4) ⟨rfl, rfl⟩
    · rw [if_neg (by decide), if_neg (by decide)] at h2
      obtain ⟨h3, rfl⟩ := lift_some h2
      unfold astTuple at h3
      rw [Ex.bind_ok] at h3
      obtain ⟨ys, h4, h5⟩ := h3
      cases Ex.pure_ok.1 h5
      exact .t h1 (items_of h4) ⟨rfl, rfl⟩
  · rename_i e c
    simp only [Bool.and_eq_true, decide_eq_true_eq] at ht
    obtain ⟨v, h1, h2⟩ := lift_bind_some h
    obtain ⟨rfl, -⟩ := ht
    unfold liftSourcecode at h2
    split at h2
    · exact .n h1 h2
    · cases h2
  · rename_i e c
    simp only [Bool.and_eq_true, decide_eq_true_eq] at ht
    obtain ⟨v, h1, h2⟩ := lift_bind_some h
    obtain ⟨rfl, -⟩ := ht
    unfold astLiteral at h2
    split at h2
    · rename_i hc
      cases hc
      split at h2
      · rw [Ex.bind_ok] at h2
        obtain ⟨_, h3, h4⟩ := h2
        cases Ex.pure_ok.1 h4
        exact .a h1 (typecheck_node h3)
      · rename_i hv
        rw [Ex.bind_ok] at h2
        obtain ⟨ys, h3, h4⟩ := h2
        cases Ex.pure_ok.1 h4
        exact .items h1 (by simpa using hv) (items_of h3)
    · split at h2
      · rename_i hc
        cases hc
        rw [Ex.bind_ok] at h2
        obtain ⟨ys, h3, h4⟩ := h2
        cases Ex.pure_ok.1 h4
        exact .block h1 (items_of h3)
      · cases h2
  · rename_i e c
    simp only [Bool.and_eq_true, decide_eq_true_eq] at ht
    obtain ⟨v, h1, h2⟩ := lift_bind_some h
    obtain ⟨⟨rfl, -⟩, -⟩ := ht
    obtain ⟨b, h3, rfl⟩ := captureValue_ok h2
    refine .h h1 h3 ?_
    rintro name rfl
    exact frozenValue_valueCode _ _
  · cases ht

mutual
theorem means_of (hH : Imported H) {E : Option (String → Option Obj)} (t : Val) {r : Obj} {st st' : St σ}
    (ht : template E (.ofVal t) = true) (h : meaning H (.ofVal t) st = some (.ok r, st')) : Means H (.ofVal t) st r st' := by
  match t with
  | .const c =>
    have h' : (some (.ok (.const c), st) : Option (Except Err Obj × St σ)) = some (.ok r, st') := h
    cases h'
    exact .const
  | .list xs =>
    rw [Obj.ofVal, meaning] at h
    obtain ⟨ys, s1, h1, h2⟩ := M.bind_some h
    cases h2
    exact .list (means_ofL hH xs (by simpa [Obj.ofVal, template] using ht) h1)
  | .node (.py k) l fs =>
    rw [Obj.ofVal, meaning] at h
    obtain ⟨gs, s1, h1, h2⟩ := M.bind_some h
    cases h2
    exact .node (means_ofF hH fs (by simp [Obj.ofVal, template] at ht; exact ht.2) h1)
  | .node (.marker n) l fs =>
    by_cases hn : n = "Done"
    · subst hn
      rw [Obj.ofVal, meaning.eq_def] at h
      dsimp only at h
      rw [if_pos rfl] at h
      obtain ⟨gs, s1, h1, h2⟩ := M.bind_some h
      cases h2
      exact .done (means_ofF hH fs (by simp [Obj.ofVal, template] at ht; exact ht.2) h1)
    · exact means_marker hH hn ht h
termination_by structural t
theorem means_ofL (hH : Imported H) {E : Option (String → Option Obj)} (ts : List Val) {rs : List Obj} {st st' : St σ}
    (ht : templateL E (Obj.ofVals ts) = true) (h : meaningL H (Obj.ofVals ts) st = some (.ok rs, st')) :
    MeansL H (Obj.ofVals ts) st rs st' := by
  match ts with
  | [] =>
    have h' : (some (.ok [], st) : Option (Except Err (List Obj) × St σ)) = some (.ok rs, st') := h
    cases h'
    exact .nil
  | t :: ts =>
    simp only [Obj.ofVals, templateL, Bool.and_eq_true] at ht
    rw [Obj.ofVals, meaningL] at h
    obtain ⟨y, s1, h1, h2⟩ := M.bind_some h
    obtain ⟨ys, s2, h3, h4⟩ := M.bind_some h2
    cases h4
    exact .cons (means_of hH t ht.1 h1) (means_ofL hH ts ht.2 h3)
termination_by structural ts
theorem means_ofF (hH : Imported H) {E : Option (String → Option Obj)} (fs : List (F × Val)) {rs : List (F × Obj)}
    {st st' : St σ} (ht : templateF E (Obj.ofFields fs) = true)
    (h : meaningF H (Obj.ofFields fs) st = some (.ok rs, st')) : MeansF H (Obj.ofFields fs) st rs st' := by
  match fs with
  | [] =>
    have h' : (some (.ok [], st) : Option (Except Err (List (F × Obj)) × St σ)) = some (.ok rs, st') := h
    cases h'
    exact .nil
  | (f, t) :: ts =>
    simp only [Obj.ofFields, templateF, Bool.and_eq_true] at ht
    rw [Obj.ofFields, meaningF] at h
    obtain ⟨y, s1, h1, h2⟩ := M.bind_some h
    obtain ⟨ys, s2, h3, h4⟩ := M.bind_some h2
    cases h4
    exact .cons (means_of hH t ht.1 h1) (means_ofF hH ts ht.2 h3)
termination_by structural fs
end

/-! ### when the commands can be carried out -/

theorem bind_supplied {α β : Type} {m : Q σ α} {f : α → Q σ β} {s s1 : St σ} {v : α} (h : m s = some (.ok v, s1)) :
    (m >>= f) s = f v s1 := by
  change M.bind m f s = _
  simp only [M.bind, h]

theorem OfKind.isAST {p : K → Bool} {v : Obj} (h : OfKind p v) : v.isAST = true := by
  cases h <;> rfl

theorem lift_val {α : Type} {x : Except Err α} {y : α} (h : x = .ok y) (s : St σ) :
    (lift x : Q σ α) s = some (.ok y, s) := by
  subst h
  rfl

mutual
theorem Supplied.meaning (hH : Imported H) {t : Obj} {st st' : St σ} (h : Supplied H t st st') :
    ∃ m, meaning H t st = some (.ok m, st') := by
  match h with
  | .u he hd =>
    obtain ⟨code, h1, -⟩ := compile hH none _ hd.template.1
    refine ⟨code, ?_⟩
    rw [meaning.eq_def]
    dsimp only
    rw [if_neg (by decide), bind_supplied he, if_pos rfl, h1]
    rfl
  | .n (r := r) he hp =>
    refine ⟨r, ?_⟩
    rw [meaning.eq_def]
    dsimp only
    rw [if_neg (by decide), bind_supplied he]
    exact lift_val hp _
  | .a (v := v) he hk =>
    refine ⟨v, ?_⟩
    rw [meaning.eq_def]
    dsimp only
    rw [if_neg (by decide), bind_supplied he]
    refine lift_val ?_ _
    unfold astLiteral
    rw [if_pos rfl, if_pos hk.isAST, hk.typecheck]
    rfl
  | .items (items := ys) he hv hi =>
    refine ⟨spliceNodes {} ys, ?_⟩
    rw [meaning.eq_def]
    dsimp only
    rw [if_neg (by decide), bind_supplied he]
    refine lift_val ?_ _
    unfold astLiteral
    rw [if_pos rfl, if_neg (by simp [hv]), flattenAndTypecheck_iff.2 hi]
    rfl
  | .block (items := ys) he hi =>
    refine ⟨spliceNodes {} ys, ?_⟩
    rw [meaning.eq_def]
    dsimp only
    rw [if_neg (by decide), bind_supplied he]
    refine lift_val ?_ _
    unfold astLiteral
    rw [if_neg (by decide), if_pos rfl, flattenAndTypecheck_iff.2 hi]
    rfl
  | .s (items := ys) he hi =>
    refine ⟨listNode ys, ?_⟩
    rw [meaning.eq_def]
    dsimp only
    rw [if_neg (by decide), bind_supplied he, if_neg (by decide), if_pos rfl]
    refine lift_val ?_ _
    unfold astList
    rw [flattenAndTypecheck_iff.2 hi]
    rfl
  | .t (items := ys) he hi =>
    refine ⟨tupleNode ys, ?_⟩
    rw [meaning.eq_def]
    dsimp only
    rw [if_neg (by decide), bind_supplied he, if_neg (by decide), if_neg (by decide)]
    refine lift_val ?_ _
    unfold astTuple
    rw [flattenAndTypecheck_iff.2 hi]
    rfl
  | .h (b := b) (c := c) he hp =>
    refine ⟨valueCode c b, ?_⟩
    rw [meaning.eq_def]
    dsimp only
    rw [if_neg (by decide), bind_supplied he]
    refine lift_val ?_ _
    unfold captureValue
    rw [hp]
    rfl
  | .const => exact ⟨_, rfl⟩
  | .list hs =>
    obtain ⟨m, hm⟩ := hs.meaning hH
    refine ⟨.list m, ?_⟩
    rw [Quotes.meaning, bind_supplied hm]
    rfl
  | .done hs =>
    obtain ⟨m, hm⟩ := hs.meaning hH
    refine ⟨.node (.marker "Done") {} m, ?_⟩
    rw [meaning.eq_def]
    dsimp only
    rw [if_pos rfl, bind_supplied hm]
    rfl
  | .node (k := k) hs =>
    obtain ⟨m, hm⟩ := hs.meaning hH
    refine ⟨.node (.py k) {} m, ?_⟩
    rw [Quotes.meaning, bind_supplied hm]
    rfl
termination_by structural h
theorem SuppliedL.meaning (hH : Imported H) {ts : List Obj} {st st' : St σ} (h : SuppliedL H ts st st') :
    ∃ m, meaningL H ts st = some (.ok m, st') := by
  match h with
  | .nil => exact ⟨[], rfl⟩
  | .cons hx hs =>
    obtain ⟨m, hm⟩ := hx.meaning hH
    obtain ⟨ms, hms⟩ := hs.meaning hH
    refine ⟨m :: ms, ?_⟩
    rw [meaningL, bind_supplied hm, bind_supplied hms]
    rfl
termination_by structural h
theorem SuppliedF.meaning (hH : Imported H) {ts : List (F × Obj)} {st st' : St σ} (h : SuppliedF H ts st st') :
    ∃ m, meaningF H ts st = some (.ok m, st') := by
  match h with
  | .nil => exact ⟨[], rfl⟩
  | .cons (f := f) hx hs =>
    obtain ⟨m, hm⟩ := hx.meaning hH
    obtain ⟨ms, hms⟩ := hs.meaning hH
    refine ⟨(f, m) :: ms, ?_⟩
    rw [meaningF, bind_supplied hm, bind_supplied hms]
    rfl
termination_by structural h
end

end Mcpyrate.Quotes
