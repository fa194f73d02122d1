import Verif.Lemmas.UnparseDebug
/-
Helper lemmas for C69: the line numbers of statements.
-/
namespace Mcpyrate
open Py Unparse Unparse.Color

/-- All the texts begin like this. -/
def Begins (pre : Str) (a : R) : Prop := ∀ s, a = .ok s → ∃ r, s = pre ++ r

namespace Begins
variable {pre : Str}

theorem bind {α : Type} {x : Except Err α} {f : α → R} (h : ∀ v, Begins pre (f v)) : Begins pre (x >>= f) := by
  cases x with
  | error e => intro s h; cases h
  | ok v => exact h v

theorem error {e : Err} : Begins pre (.error e) := by
  intro s h
  cases h

theorem ite {c : Prop} [Decidable c] {a b : R} (h : Begins pre a) (h' : Begins pre b) : Begins pre (if c then a else b) := by
  split <;> assumption

theorem pure (r : Str) {s : Str} (h : s = pre ++ r) : Begins pre (Pure.pure s) := by
  intro s' e
  cases e
  exact ⟨r, h⟩

end Begins

/-- What `fill` writes in front. -/
def start (c : Color.Ctx) (l : Loc) : Str := Color.fill c (some l) []

theorem fill_start (c : Color.Ctx) (l : Loc) (x : Str) : Color.fill c (some l) x = start c l ++ x := by
  unfold start Color.fill
  simp [List.append_assoc]

macro "begins" : tactic => `(tactic| repeat' first
  | exact Begins.error
  | (with_reducible apply Begins.ite)
  | (with_reducible refine Begins.bind fun _ => ?_)
  | exact Begins.pure _ (by simp only [fill_start, List.append_assoc] <;> rfl)
  | split)

theorem ifStmt_begins {rec : Color.Rec} {c : Color.Ctx} (w : String) (n : Nat) (l : Loc) (fs : Fields) :
    Begins (start c l) (Color.ifStmt rec c w n l fs) := by
  cases n with
  | zero => exact Begins.error
  | succ n =>
    unfold Color.ifStmt
    begins

theorem method_begins {H : Host} {rec : Color.Rec} {n : Nat} {c : Color.Ctx} (hd : c.opts.debug = true) (t : Val) (l : Loc)
    (fs : Fields) (k : K) (hk : k.isStmt = true) (hk' : k ≠ .ClassDef) (hk'' : k ≠ .FunctionDef) (hk3 : k ≠ .AsyncFunctionDef) :
    Begins (start c l) (Color.method H rec n c t l fs k) := by
  cases k
  all_goals first | (exfalso; exact absurd hk (by decide)) | skip
  all_goals first | (exfalso; exact hk' rfl) | (exfalso; exact hk'' rfl) | (exfalso; exact hk3 rfl) | skip
  all_goals (unfold Color.method; dsimp only)
  all_goals first
    | exact Begins.pure _ (fill_start ..)
    | apply ifStmt_begins
    | (unfold Color.exprStmt; rw [hd, if_pos rfl]; begins)
    | (unfold Color.importFrom; begins)
    | (unfold Color.assign; begins)
    | (unfold Color.annAssign; begins)
    | (unfold Color.augAssign; begins)
    | (unfold Color.returnStmt; begins)
    | (unfold Color.assertStmt; begins)
    | (unfold Color.raiseStmt; begins)
    | (unfold Color.tryStmt; begins)
    | (unfold Color.forStmt; begins)
    | (unfold Color.whileStmt; begins)
    | (unfold Color.withStmt; begins)
    | (unfold Color.matchStmt; begins)
    | (unfold Color.typeAlias; begins)
    | (refine Begins.bind fun _ => ?_; unfold Color.wordList; begins)
    | (refine Begins.bind fun _ => ?_; unfold Color.nameList; begins)
    | exact Begins.error

theorem dispatch_begins {H : Host} {n : Nat} {c : Color.Ctx} {t : Val} {l : Loc} {fs : Fields} {k : K}
    (ht : t = .node (.py k) l fs) (hd : c.opts.debug = true) (ho : c.opts.color = none)
    (hv : c.opts.capturedValue t = .ok none) (hm : c.opts.capturedMacro t = .ok none)
    (hk : k.isStmt = true) (hk' : k ∉ [K.ClassDef, .FunctionDef, .AsyncFunctionDef]) :
    Begins ('\n' :: (lineLabel (lineOf l) ++ List.replicate (4 * c.indent) ' ')) (Color.dispatch H n c t) := by
  subst ht
  have e : start c l = '\n' :: (lineLabel (lineOf l) ++ List.replicate (4 * c.indent) ' ') := by
    unfold start Color.fill
    rw [hd, if_pos rfl]
    dsimp only
    rw [label_eq ho, List.append_nil]
  rw [← e]
  cases n with
  | zero => exact Begins.error
  | succ n =>
    unfold Color.dispatch
    have e' : captured c.opts (.node (.py k) l fs) = .ok none := by
      unfold captured
      dsimp only
      rw [hd, hv, if_pos rfl]
      show (c.opts.capturedMacro _ >>= _) = _
      rw [hm]
      rfl
    rw [e']
    simp only [List.mem_cons, List.not_mem_nil, or_false, not_or] at hk'
    exact method_begins hd _ l fs k hk hk'.1 hk'.2.1 hk'.2.2

theorem texts_begin {H : Host} {n : Nat} {o : Opts} (hd : o.debug = true) (ho : o.color = none)
    (code : List (K × Loc × Fields))
    (hk : ∀ x ∈ code, x.1.isStmt = true ∧ x.1 ∉ [K.ClassDef, .FunctionDef, .AsyncFunctionDef])
    (hv : ∀ x ∈ code, o.capturedValue (.node (.py x.1) x.2.1 x.2.2) = .ok none)
    (hm : ∀ x ∈ code, o.capturedMacro (.node (.py x.1) x.2.1 x.2.2) = .ok none) : ∀ {ss : List Str},
    texts (Color.dispatch H n { opts := o }) (code.map fun x => .node (.py x.1) x.2.1 x.2.2) = .ok ss →
    ∃ rs : List Str, rs.length = code.length ∧
      ss.flatten = (code.zip rs).flatMap fun p => '\n' :: (lineLabel (lineOf p.1.2.1) ++ p.2) := by
  induction code with
  | nil =>
    intro ss h
    cases h
    exact ⟨[], rfl, rfl⟩
  | cons x code ih =>
    intro ss h
    rw [List.map_cons] at h
    unfold texts at h
    cases h1 : Color.dispatch H n { opts := o } (.node (.py x.1) x.2.1 x.2.2) with
    | error e => rw [h1] at h; cases h
    | ok s =>
      rw [h1] at h
      cases h2 : texts (Color.dispatch H n { opts := o }) (code.map fun x => .node (.py x.1) x.2.1 x.2.2) with
      | error e =>
        replace h : (texts (Color.dispatch H n { opts := o }) (code.map fun x => .node (.py x.1) x.2.1 x.2.2) >>=
          fun ys => Pure.pure (s :: ys)) = Except.ok ss := h
        rw [h2] at h
        cases h
      | ok ys =>
        replace h : (texts (Color.dispatch H n { opts := o }) (code.map fun x => .node (.py x.1) x.2.1 x.2.2) >>=
          fun ys => Pure.pure (s :: ys)) = Except.ok ss := h
        rw [h2] at h
        cases h
        have hx := hk x List.mem_cons_self
        obtain ⟨r, hr⟩ := dispatch_begins (c := { opts := o }) rfl hd ho (hv x List.mem_cons_self)
          (hm x List.mem_cons_self) hx.1 hx.2 s h1
        obtain ⟨rs, h3, h4⟩ := ih (fun y hy => hk y (List.mem_cons_of_mem _ hy)) (fun y hy => hv y (List.mem_cons_of_mem _ hy))
          (fun y hy => hm y (List.mem_cons_of_mem _ hy)) h2
        refine ⟨r :: rs, by rw [List.length_cons, List.length_cons, h3], ?_⟩
        rw [List.flatten_cons, h4, List.zip_cons_cons, List.flatMap_cons, hr]
        simp

theorem fill_labelled {c : Color.Ctx} (hd : c.opts.debug = true) (ho : c.opts.color = none) (hi : c.indent = 0) (l : Loc)
    (w : String) (r : Str) : Color.fill c (some l) (Color.kw c w) ++ r = labelled l w r := by
  unfold Color.fill labelled Color.kw
  rw [hd, if_pos rfl, hi, paint_none ho]
  dsimp only
  rw [label_eq ho]
  simp

theorem blockIf_labelled {rec : Color.Rec} {c : Color.Ctx} (hd : c.opts.debug = true) (ho : c.opts.color = none)
    (hi : c.indent = 0) (l : Loc) (e : List Val) {s : Str} (h : Color.blockIf rec c l "else" (.list e) = .ok s) :
    ∃ u, s = if e = [] then [] else labelled l "else:" u := by
  cases e with
  | nil => cases h; exact ⟨[], rfl⟩
  | cons x xs =>
    unfold Color.blockIf opt at h
    rw [if_pos (show truthy (.list (x :: xs)) = true from rfl)] at h
    dsimp only at h
    cases hb : Color.block rec c (.list (x :: xs)) with
    | error e => rw [hb] at h; cases h
    | ok b =>
      rw [hb] at h
      cases h
      unfold Color.block at hb
      cases ha : Color.dispatchAny rec c.enter (.list (x :: xs)) with
      | error e => rw [ha] at hb; cases hb
      | ok a =>
        rw [ha] at hb
        cases hb
        refine ⟨a, ?_⟩
        rw [if_neg (by simp), fill_labelled hd ho hi]
        unfold labelled
        simp [show lit "else:" = lit "else" ++ [':'] by decide +kernel]

theorem ifStmt_chain {rec : Color.Rec} {c : Color.Ctx} (hd : c.opts.debug = true) (ho : c.opts.color = none)
    (hi : c.indent = 0) (e : List Val) (he : ∀ l fs, e ≠ [.node (.py .If) l fs]) (xs : List (Loc × Val × Val)) :
    ∀ (w : String) (n : Nat) (x : Loc × Val × Val) (l : Loc) (fs : Fields), ifChain x xs e = .node (.py .If) l fs →
      ∀ s, Color.ifStmt rec c w n l fs = .ok s → ChainText w x xs e s := by
  induction xs with
  | nil =>
    intro w n x l fs hx s h
    obtain ⟨l0, t, b⟩ := x
    unfold ifChain at hx
    cases hx
    cases n with
    | zero => cases h
    | succ n =>
      rw [Color.ifStmt.eq_def] at h
      change (rec c t >>= fun a => Color.block rec c b >>= fun d => _) = _ at h
      cases ha : rec c t with
      | error x => rw [ha] at h; cases h
      | ok a =>
        rw [ha] at h
        change (Color.block rec c b >>= fun d => _) = _ at h
        cases hb : Color.block rec c b with
        | error x => rw [hb] at h; cases h
        | ok d =>
          rw [hb] at h
          change (match Val.list e with | .list [.node (.py .If) l' gs] => _ | e => _) = _ at h
          have finish : ∀ r, (Color.blockIf rec c l "else" (.list e) >>= fun x =>
              (pure (Color.fill c (some l) (Color.kw c w) ++ a ++ d ++ x) : R)) = .ok r → ChainText w (l, t, b) [] e r := by
            intro r h
            cases hu : Color.blockIf rec c l "else" (.list e) with
            | error x => rw [hu] at h; cases h
            | ok x =>
              rw [hu] at h
              cases h
              obtain ⟨u, rfl⟩ := blockIf_labelled hd ho hi l e hu
              refine ⟨a ++ d, [], u, rfl, ?_⟩
              rw [List.append_assoc (Color.fill ..), fill_labelled hd ho hi]
              simp
          split at h
          · rename_i e'
            cases e'
            exact absurd rfl (he _ _)
          · exact finish _ h
  | cons y ys ih =>
    intro w n x l fs hx s h
    obtain ⟨l0, t, b⟩ := x
    unfold ifChain at hx
    cases hx
    cases n with
    | zero => cases h
    | succ n =>
      rw [Color.ifStmt.eq_def] at h
      change (rec c t >>= fun a => Color.block rec c b >>= fun d => _) = _ at h
      cases ha : rec c t with
      | error x => rw [ha] at h; cases h
      | ok a =>
        rw [ha] at h
        change (Color.block rec c b >>= fun d => _) = _ at h
        cases hb : Color.block rec c b with
        | error x => rw [hb] at h; cases h
        | ok d =>
          rw [hb] at h
          obtain ⟨l', gs, hy⟩ : ∃ l' gs, ifChain y ys e = .node (.py .If) l' gs := by
            obtain ⟨l1, t1, b1⟩ := y
            cases ys <;> exact ⟨_, _, rfl⟩
          rw [hy] at h
          change (Color.ifStmt rec c "elif " n l' gs >>= fun x =>
            (pure (Color.fill c (some l) (Color.kw c w) ++ a ++ d ++ x) : R)) = _ at h
          cases hr : Color.ifStmt rec c "elif " n l' gs with
          | error x => rw [hr] at h; cases h
          | ok x =>
            rw [hr] at h
            cases h
            obtain ⟨r, rs, u, h1, rfl⟩ := ih "elif " n y l' gs hy x hr
            refine ⟨a ++ d, r :: rs, u, by simp [h1], ?_⟩
            rw [List.append_assoc (Color.fill ..), List.append_assoc (Color.fill ..), ← List.append_assoc (a ++ d), ← List.append_assoc (a ++ d)]
            simp only [← List.append_assoc]
            rw [List.append_assoc (Color.fill ..), fill_labelled hd ho hi]
            simp only [List.zip_cons_cons, List.flatMap_cons, List.append_assoc]
            cases ys <;> rfl

end Mcpyrate
