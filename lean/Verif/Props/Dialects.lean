import Verif.Lemmas.Dialects
import Verif.Spec.GetMacrosExample
/-
C41 Dialect AST transformers run once each, in order.
-/
namespace Mcpyrate
open Py GetMacros Paths Splicing Dialects

variable {σ M O D C : Type}

/-- C41: when `transform_ast` returns, then it has processed a sequence of dialect-imports, each time the first one at
the top level of the module, which it replaced before it ran the transformers of its dialects from left to
right; the instances are returned in this order; and no dialect-import remains at the top level. -/
theorem C41_runs (K : Classes σ O D Val) (I : Interp σ M O) (filename : Str) (n : Nat) (t t' : Val) (ds : List D)
    (s s' : St σ) (h : transformAst K I filename n t s = some (.ok (t', ds), s')) :
    ∃ recs, Steps K I filename t s.world recs t' s'.world ∧ ds = (recs.flatMap (·.2)).map (·.dialect) ∧
      dialectImports t' = [] := by
  obtain ⟨recs, h1, h2, body, h3, h4⟩ := transform_ok h
  refine ⟨recs, h1, by simpa using h2, ?_⟩
  unfold dialectImports stmts
  rw [h3]
  exact List.filter_eq_nil_iff.2 (fun x hx => by simp [h4 x hx])

/-- The transformers return modules. -/
def ReturnsModules (K : Classes σ O D Val) : Prop :=
  ∀ d m c s c' s', K.method d = some m → ModuleOk c → m c s = (.value c', s') → ModuleOk c'

/-- The transformers do not add, remove or move dialect-imports. -/
def KeepsImports (K : Classes σ O D Val) : Prop :=
  ∀ d m c s c' s', K.method d = some m → m c s = (.value c', s') → dialectImports c' = dialectImports c

private theorem applied_ok {K : Classes σ O D Val} (hK : ReturnsModules K) {l k : Attr} {bs : List (String × O)}
    {c c' : Val} {s s' : σ} {calls : List (Call D Val)} (h : Applied K l k bs c s calls c' s') (hc : ModuleOk c) :
    ModuleOk c' := by
  induction h with
  | nil => exact hc
  | cons _ _ hm hr ho _ ih =>
    cases ho with
    | same => exact ih hc
    | new _ => exact ih (hK _ _ _ _ _ _ hm hc hr)

private theorem applied_imports {K : Classes σ O D Val} (hK : KeepsImports K) {l k : Attr} {bs : List (String × O)}
    {c c' : Val} {s s' : σ} {calls : List (Call D Val)} (h : Applied K l k bs c s calls c' s') :
    dialectImports c' = dialectImports c := by
  induction h with
  | nil => rfl
  | cons _ _ hm hr ho _ ih =>
    cases ho with
    | same => exact ih
    | new _ => rw [ih, hK _ _ _ _ _ _ hm hr]

private theorem imported_ok {I : Interp σ M O} {fn : Str} {t t1 d : Val} {s s1 : σ} {b : Dict String O}
    (hok : ModuleOk t) (h : Imported I fn t s d b t1 s1) : ModuleOk t1 := by
  obtain ⟨pre, post, a, v, h1, _, h3, h4⟩ := h
  exact getMacros_names_ok hok h1 h3 h4

private theorem applied_names {K : Classes σ O D C} {l k : Attr} {bs : List (String × O)}
    {c c' : C} {s s' : σ} {calls : List (Call D C)} (h : Applied K l k bs c s calls c' s') :
    calls.map (·.name) = bs.map (·.1) := by
  induction h with
  | nil => rfl
  | cons _ _ _ _ _ _ ih => simp [ih]

/-- C41: an exception in a dialect-import is passed on. -/
theorem C41_import_fails (K : Classes σ O D Val) (I : Interp σ M O) (filename : Str) (n : Nat) (t : Val)
    (s : St σ) (pre post : List Val) (d : Val) (e : Err) (s1 : σ) (hok : ModuleOk t) (hf : First t pre d post)
    (hg : getMacros I { filename, allowAsname := false } d s.world = (.error e, s1)) :
    ∃ s', transformAst K I filename (n + 1) t s = some (.error e, s') ∧ s'.world = s1 := by
  refine ⟨{ s with world := s1 }, ?_, rfl⟩
  obtain ⟨body, hb, hs⟩ := hok
  rw [hf.1] at hb
  cases hb
  rw [transformAst, transform]
  unfold findAst
  rw [hf.1]
  dsimp only
  rw [firstImport_of hs hf.2.1 hf.2.2]
  dsimp only
  rw [show opts filename = { filename, allowAsname := false } from rfl, hg]

/-- C41: what is not a dialect is a TypeError; a dialect that cannot be instantiated, has no transformer method, or whose
transformer raises or returns something empty, is an ImportError.  The dialects after it are not run. -/
theorem C41_dialect_fails (K : Classes σ O D Val) (I : Interp σ M O) (filename : Str) (n : Nat) (t c : Val)
    (s : St σ) (pre post : List Val) (d : Val) (a : String) (bs after : Dict String O) (x : String) (o : O)
    (e : Err) (s1 s2 s3 : σ) (calls : List (Call D Val)) (hok : ModuleOk t) (hf : First t pre d post)
    (hg : getMacros I { filename, allowAsname := false } d s.world = (.ok (a, bs ++ (x, o) :: after), s1))
    (ha : Applied K (seen (Expander.locOf d).lineno) (seen (Expander.locOf d).colOffset) bs
      (Expander.withField t .body (.list (pre ++ FindMacros.absImport a (Expander.locOf d) :: post))) s1 calls c s2)
    (hb : Bad K (seen (Expander.locOf d).lineno) (seen (Expander.locOf d).colOffset) o c s2 e s3) :
    ∃ s', transformAst K I filename (n + 1) t s = some (.error e, s') ∧ s'.world = s3 := by
  have h1 := findAst_of (s := s) hok hf hg
  obtain ⟨st', h5, h6⟩ := applyAll_bad
    (f := ⟨a, bs ++ (x, o) :: after, seen (Expander.locOf d).lineno, seen (Expander.locOf d).colOffset⟩)
    (x := x) (post := after) ha hb [] { s with world := s1 } rfl
  refine ⟨st', ?_, h6⟩
  rw [transformAst, transform, h1]
  dsimp only
  rw [h5]

/-- C41: without dialect-imports nothing happens. -/
theorem C41_no_dialects (K : Classes σ O D Val) (I : Interp σ M O) (filename : Str) (n : Nat) (t : Val)
    (s : St σ) (hok : ModuleOk t) (h : dialectImports t = []) :
    transformAst K I filename (n + 1) t s = some (.ok (t, []), s) := by
  obtain ⟨body, hb, hs⟩ := hok
  have : firstImport body = .ok none := firstImport_of_none hs (fun x hx => by
    unfold dialectImports stmts at h
    rw [hb] at h
    simpa using List.filter_eq_nil_iff.1 h x hx)
  rw [transformAst, transform]
  unfold findAst
  rw [hb]
  dsimp only
  rw [this]

/-- C41: if the transformers do not add, remove or move dialect-imports, then all dialect-imports of the module are
processed, once each, in order of appearance. -/
theorem C41_order (K : Classes σ O D Val) (hK : KeepsImports K) (I : Interp σ M O) (filename : Str) (n : Nat)
    (t t' : Val) (ds : List D) (s s' : St σ) (h : transformAst K I filename n t s = some (.ok (t', ds), s')) :
    ∃ recs, Steps K I filename t s.world recs t' s'.world ∧ ds = (recs.flatMap (·.2)).map (·.dialect) ∧
      recs.map (·.1) = dialectImports t := by
  obtain ⟨recs, h1, h2, h3⟩ := C41_runs K I filename n t t' ds s s' h
  refine ⟨recs, h1, h2, ?_⟩
  clear h h2
  generalize s.world = w at h1
  generalize s'.world = w' at h1
  induction h1 with
  | nil => exact h3.symm
  | cons hi ha _ ih =>
    obtain ⟨pre, post, a, v, h4, _, h6, h7⟩ := hi
    rw [List.map_cons, ih h3, applied_imports hK ha, dialectImports_step h4 h6 h7]

/-- C41: then the loop ends. -/
theorem C41_terminates (K : Classes σ O D Val) (hK : KeepsImports K) (hM : ReturnsModules K) (I : Interp σ M O)
    (filename : Str) (t : Val) (hok : ModuleOk t) (s : St σ) :
    ∃ r, transformAst K I filename ((dialectImports t).length + 1) t s = some r := by
  suffices h : ∀ n t, ModuleOk t → (dialectImports t).length ≤ n → ∀ ds (s : St σ),
      ∃ r, transform K (findAst I filename) (n + 1) t ds s = some r from h _ t hok (Nat.le_refl _) [] s
  intro n
  induction n with
  | zero =>
    intro t hok hn ds s
    have h0 : dialectImports t = [] := List.eq_nil_of_length_eq_zero (by omega)
    obtain ⟨body, hb, hs⟩ := hok
    have : firstImport body = .ok none := firstImport_of_none hs (fun x hx => by
      unfold dialectImports stmts at h0
      rw [hb] at h0
      simpa using List.filter_eq_nil_iff.1 h0 x hx)
    refine ⟨(.ok (t, ds), s), ?_⟩
    rw [transform]
    unfold findAst
    rw [hb]
    dsimp only
    rw [this]
  | succ n ih =>
    intro t hok hn ds s
    rw [transform]
    cases hf : findAst I filename t s with
    | mk r s1 =>
      cases r with
      | error e => exact ⟨_, rfl⟩
      | ok p =>
        obtain ⟨o, t1⟩ := p
        cases o with
        | none => exact ⟨_, rfl⟩
        | some f =>
          dsimp only
          cases ha : applyAll K f f.bindings t1 ds s1 with
          | mk r2 s2 =>
            cases r2 with
            | error e => exact ⟨_, rfl⟩
            | ok q =>
              obtain ⟨t2, ds2⟩ := q
              obtain ⟨d, h1, h2, h3⟩ := findAst_some hf
              obtain ⟨calls, h4, _⟩ := applyAll_ok ha
              refine ih t2 (applied_ok hM h4 (imported_ok hok h1)) ?_ ds2 s2
              obtain ⟨pre, post, a, v, h5, _, h6, h7⟩ := h1
              rw [applied_imports hK h4]
              rw [dialectImports_step h5 h6 h7, List.length_cons] at hn
              omega

/-- C41: the input of the first transformer of a dialect-import is the module in which that statement, and every
dialect-import before it, has been replaced. -/
theorem C41_input (K : Classes σ O D Val) (I : Interp σ M O) (filename : Str) (t t' : Val) (s s' : σ)
    (recs before after : List (Val × List (Call D Val))) (d : Val) (call : Call D Val) (calls : List (Call D Val))
    (h : Steps K I filename t s recs t' s') (hr : recs = before ++ (d, call :: calls) :: after) :
    ∃ pre v post a, call.input.get? .body = some (.list (pre ++ v :: post)) ∧
      FindMacros.IsImportOf a (Expander.locOf d) v ∧ ∀ x ∈ pre ++ [v], isImport "dialects" x = false := by
  induction h generalizing before with
  | nil => cases before <;> cases hr
  | cons hi ha _ ih =>
    cases before with
    | cons b before => exact ih before (List.cons.inj hr).2
    | nil =>
      cases hr
      obtain ⟨pre, post, a, v, h4, _, h6, h7⟩ := hi
      cases ha with
      | cons _ _ _ _ _ _ =>
        subst h7
        refine ⟨pre, v, post, a, Expander.withField_get h4.1, h6, fun x hx => ?_⟩
        rcases List.mem_append.1 hx with hx | hx
        · exact h4.2.2 x hx
        · cases List.mem_singleton.1 hx
          obtain ⟨l, l', rfl, _⟩ := h6
          rfl

private theorem set_keys (b : Dict String O) (k : String) (v : O) (h : k ∉ b.keys) : (b.set k v).keys = b.keys ++ [k] := by
  induction b with
  | nil => rfl
  | cons e b ih =>
    obtain ⟨k', v'⟩ := e
    simp only [Dict.keys, List.map_cons, List.mem_cons, not_or] at h
    rw [Dict.set, if_neg (Ne.symm h.1)]
    simp only [Dict.keys, List.map_cons, List.cons_append] at ih ⊢
    rw [ih h.2]

private theorem bindNames_keys {I : Interp σ M O} {o : Opts} (ho : o.allowAsname = false) {s : σ} {m : M} {vs : List Val}
    {ns : List (String × Option String)} (hv : vs.map aliasOf = ns.map .ok)
    {b0 b : Dict String O} (hd : (b0.keys ++ ns.map (·.1)).Nodup) (h : bindNames I o s m vs b0 = .ok b) :
    b.keys = b0.keys ++ ns.map (·.1) := by
  induction vs generalizing ns b0 with
  | nil =>
    cases ns with
    | nil => cases h; simp
    | cons => simp at hv
  | cons v vs ih =>
    cases ns with
    | nil => simp at hv
    | cons y ns =>
      simp only [List.map_cons, List.cons.injEq] at hv
      obtain ⟨n, as⟩ := y
      rw [bindNames, hv.1] at h
      dsimp only at h
      split at h
      · cases h
      · rename_i hal
        have has : as = none := by
          cases as with
          | none => rfl
          | some a => simp [ho] at hal
        subst has
        split at h
        · cases h
        · split at h
          · cases h
          · rename_i x _ _
            have hk : n ∉ b0.keys := fun hm => by
              rw [List.nodup_append] at hd
              exact hd.2.2 n hm n (by simp) rfl
            have hs : (b0.set (key n none) x).keys = b0.keys ++ [n] := set_keys b0 n x hk
            have := ih hv.2 (b0 := b0.set (key n none) x) (by rw [hs]; simpa using hd) h
            rw [this, hs]
            simp

/-- C41: the dialects of one dialect-import are applied from left to right, once each (names are expected to be
different). -/
theorem C41_left_to_right (K : Classes σ O D C) (I : Interp σ M O) (filename : Str) (d : Val) (a : String)
    (b : Dict String O) (x : String × Option String) (ns : List (String × Option String)) (s s1 s2 s3 : σ)
    (hn : Names d (x :: ns)) (hd : (ns.map (·.1)).Nodup)
    (hg : getMacros I { filename, allowAsname := false } d s = (.ok (a, b), s1))
    (l k : Attr) (c c' : C) (calls : List (Call D C)) (h : Applied K l k b c s2 calls c' s3) :
    calls.map (·.name) = ns.map (·.1) := by
  rw [applied_names h]
  obtain ⟨vs, hv1, hv2⟩ := hn
  unfold getMacros at hg
  split at hg
  · cases hg
  · split at hg
    · cases hg
    · unfold bindAll at hg
      rw [hv1] at hg
      dsimp only at hg
      split at hg
      · cases hg
      · rename_i b' hb
        cases hg
        have hd' : (vs.drop 1).map aliasOf = ns.map .ok := by
          rw [List.map_drop, hv2]; simp
        have := bindNames_keys (o := { filename, allowAsname := false }) rfl hd' (b0 := []) (by simpa [Dict.keys] using hd) hb
        simpa [Dict.keys] using this

/-- C41: the postprocessors run on the given instances, in the same order, each on the output of the one before. -/
theorem C41_postprocess (K : Classes σ O D C) (ds : List D) (c c' : C) (s : St σ) (w' : σ) :
    (∃ s', postprocess K ds c s = (.ok c', s') ∧ s'.world = w') ↔ ∃ calls, Posted K ds c s.world calls c' w' := by
  constructor
  · rintro ⟨s', h, rfl⟩
    induction ds generalizing c s with
    | nil => cases h; exact ⟨[], .nil⟩
    | cons d ds ih =>
      rw [postprocess] at h
      split at h
      · cases h
      · rename_i m hm
        split at h
        · cases h
        · rename_i w hr
          obtain ⟨calls, h1⟩ := ih _ _ h
          exact ⟨_, .cons hm hr .same h1⟩
        · rename_i c1 w hr
          split at h
          · cases h
          · rename_i ht
            obtain ⟨calls, h1⟩ := ih _ _ h
            exact ⟨_, .cons hm hr (.new (by simpa using ht)) h1⟩
  · rintro ⟨calls, h⟩
    generalize hw : s.world = w at h
    induction h generalizing s with
    | nil => exact ⟨s, rfl, hw⟩
    | cons hm hr ho _ ih =>
      subst hw
      rw [postprocess, hm]
      dsimp only
      rw [hr]
      cases ho with
      | same => exact ih _ rfl
      | new ht =>
        dsimp only
        rw [ht]
        exact ih _ rfl

/-- C41: the dialect instances postprocessed are those that ran. -/
theorem C41_posted_dialects (K : Classes σ O D C) (ds : List D) (c c' : C) (s s' : σ) (calls : List (Call D C))
    (h : Posted K ds c s calls c' s') : calls.map (·.dialect) = ds := by
  induction h with
  | nil => rfl
  | cons _ _ _ _ ih => simp [ih]

private theorem applied_inherited {K : Classes σ O D C} (hK : ∀ d, K.method d = some inherited) {l k : Attr}
    {b : List (String × O)} {c c' : C} {s s' : σ} {calls : List (Call D C)} (h : Applied K l k b c s calls c' s') : c' = c := by
  induction h with
  | nil => rfl
  | cons _ _ hm hr ho _ ih =>
    rw [hK] at hm
    cases hm
    cases hr
    cases ho
    exact ih

private theorem absolute_step {pre post out : List Val} {d v : Val} {a : String} (hp : ∀ x ∈ pre, isImport "dialects" x = false)
    (hd : isImport "dialects" d = true) (hv : FindMacros.IsImportOf a (Expander.locOf d) v)
    (h : Absolute (pre ++ v :: post) out) : Absolute (pre ++ d :: post) out := by
  induction pre generalizing out with
  | nil =>
    have hf : isImport "dialects" v = false := by
      obtain ⟨l, l', rfl, _⟩ := hv
      rfl
    cases h with
    | keep _ h => exact .import hd hv h
    | «import» ht => rw [hf] at ht; cases ht
  | cons x pre ih =>
    have hf := hp x List.mem_cons_self
    cases h with
    | keep _ h => exact .keep hf (ih (fun y hy => hp y (List.mem_cons_of_mem _ hy)) h)
    | «import» ht => rw [hf] at ht; cases ht

private theorem absolute_refl : ∀ {xs : List Val}, xs.filter (isImport "dialects") = [] → Absolute xs xs
  | [], _ => .nil
  | x :: xs, h => by
    rw [List.filter_eq_nil_iff] at h
    exact .keep (by simpa using h x List.mem_cons_self)
      (absolute_refl (List.filter_eq_nil_iff.2 fun y hy => h y (List.mem_cons_of_mem _ hy)))

/-- C41: dialects that do not override `transform_ast` change nothing, but their dialect-imports become absolute imports. -/
theorem C41_inherited (K : Classes σ O D Val) (hK : ∀ d, K.method d = some inherited) (I : Interp σ M O) (filename : Str)
    (n : Nat) (t t' : Val) (ds : List D) (s s' : St σ) (h : transformAst K I filename n t s = some (.ok (t', ds), s')) :
    Absolute (stmts t) (stmts t') ∧ ∀ f, f ≠ .body → t'.get? f = t.get? f := by
  obtain ⟨recs, h1, -, h2⟩ := C41_runs K I filename n t t' ds s s' h
  clear h
  generalize s.world = w, s'.world = w' at h1
  induction h1 with
  | nil => exact ⟨absolute_refl h2, fun _ _ => rfl⟩
  | cons hi ha _ ih =>
    obtain ⟨pre, post, a, v, h4, _, h6, h7⟩ := hi
    cases applied_inherited hK ha
    obtain ⟨h8, h9⟩ := ih h2
    subst h7
    refine ⟨?_, fun f hf => (h9 f hf).trans (Expander.withField_get_ne hf)⟩
    have e1 : ∀ u : Val, ∀ b, u.get? .body = some (.list b) → stmts u = b := fun u b hu => by unfold stmts; rw [hu]
    rw [e1 _ _ (Expander.withField_get h4.1)] at h8
    rw [e1 _ _ h4.1]
    exact absolute_step h4.2.2 h4.2.1 h6 h8

/-- C41: dialects that do not override `postprocess_ast` have no effect after macro expansion. -/
theorem C41_post_inherited (K : Classes σ O D C) (hK : ∀ d, K.post d = some inherited) (ds : List D) (c : C) (s : St σ) :
    ∃ s', postprocess K ds c s = (.ok c, s') ∧ s'.world = s.world := by
  rw [C41_postprocess]
  generalize s.world = w
  induction ds with
  | nil => exact ⟨[], .nil⟩
  | cons d ds ih =>
    obtain ⟨calls, h⟩ := ih
    exact ⟨_, .cons (hK d) rfl .same h⟩

/-! An example: the dialect `f` (1) appends a statement with its name, `g` (2) has no transformer of its own but a
postprocessor.  The state is that of `GetMacros.Ex`. -/

namespace Dialects.Ex

def add (x : String) (t : Val) : Val := setBody t (stmts t ++ [exprStmt (name x)])

def classes : Classes (List String) Nat (Nat × Option Int) Val where
  isDialect := fun o => o != 0
  new := fun o l _ s => (some (o, match l with | .int n => some n | _ => none), s)
  method := fun d => some fun t s => if d.1 = 1 then (.value (add "f" t), s) else (.notImplemented, s)
  post := fun d => some fun t s => if d.1 = 2 then (.value (add "post_g" t), s) else (.notImplemented, s)
  truthy := fun t => t.isAST

def dialectImport (module_ : String) (ns : List String) : Val :=
  .node (.py .ImportFrom) { lineno := .int 3, colOffset := .int 0, endLineno := .missing, endColOffset := .missing }
    [(.module_, .str module_), (.names, .list (("dialects" :: ns).map fun x => GetMacros.Ex.alias x none)), (.level, .int 0)]

def mod : Val :=
  mk .Module [(.body, .list [exprStmt (name "x"), dialectImport "lib" ["g", "f"], dialectImport "p.lib" ["f"]]),
    (.type_ignores, .list [])]

end Dialects.Ex
open Dialects.Ex

/-- The hypotheses hold. -/
example : KeepsImports classes ∧ ReturnsModules classes ∧ ModuleOk mod ∧
    dialectImports mod = [dialectImport "lib" ["g", "f"], dialectImport "p.lib" ["f"]] := by
  have hadd : ∀ {d : Nat × Option Int} {m c s c' s'}, classes.method d = some m → m c s = (.value c', s') →
      c' = add "f" c := by
    intro d m c s c' s' hm hr
    cases hm
    dsimp only at hr
    split at hr <;> cases hr
    rfl
  refine ⟨fun d m c s c' s' hm hr => ?_, fun d m c s c' s' hm hc hr => ?_, ⟨_, rfl, fun u hu => ?_⟩, by decide +kernel⟩
  · rw [hadd hm hr]
    cases c with
    | node k l fs =>
      cases hb : Val.get? (.node k l fs) .body with
      | none =>
        have : setBody (.node k l fs) (stmts (.node k l fs) ++ [exprStmt (name "f")]) = .node k l fs := by
          have hfs : ∀ (fs : Fields) (w : Val), fs.lookup F.body = none → setF fs .body w = fs := by
            intro fs w h
            induction fs with
            | nil => rfl
            | cons e fs ih =>
              obtain ⟨g, v⟩ := e
              rw [List.lookup_cons] at h
              by_cases hg : F.body = g
              · subst hg; simp at h
              · rw [show (F.body == g) = false from by simpa using hg] at h
                have := ih h
                simp only [setF, List.map_cons] at this ⊢
                rw [if_neg (fun e => hg e.symm), this]
          unfold setBody
          dsimp only
          rw [hfs fs _ hb]
        unfold add
        rw [this]
      | some w =>
        have hg := Expander.withField_get (v := .list (stmts (.node k l fs) ++ [exprStmt (name "f")])) hb
        have : add "f" (.node k l fs) = Expander.withField (.node k l fs) .body
          (.list (stmts (.node k l fs) ++ [exprStmt (name "f")])) := rfl
        rw [dialectImports, this]
        have h2 : stmts (Expander.withField (.node k l fs) .body
          (.list (stmts (.node k l fs) ++ [exprStmt (name "f")]))) = stmts (.node k l fs) ++ [exprStmt (name "f")] := by
          rw [stmts, hg]
        rw [h2, List.filter_append]
        have : List.filter (isImport "dialects") [exprStmt (name "f")] = [] := by decide
        rw [this, List.append_nil]
        rfl
    | list _ => rfl
    | const _ => rfl
  · rw [hadd hm hr]
    obtain ⟨body, hb, hs⟩ := hc
    have hst : stmts c = body := by rw [stmts, hb]
    refine ⟨body ++ [exprStmt (name "f")], ?_, fun u hu hk => ?_⟩
    · have := Expander.withField_get (v := .list (stmts c ++ [exprStmt (name "f")])) hb
      rw [← hst]
      exact this
    · rcases List.mem_append.1 hu with hu | hu
      · exact hs u hu hk
      · cases List.mem_singleton.1 hu
        cases hk
  · simp only [List.mem_cons, List.not_mem_nil, or_false] at hu
    rcases hu with rfl | rfl | rfl
    · intro h; cases h
    · exact fun _ => ⟨_, _, _, rfl, rfl⟩
    · exact fun _ => ⟨_, _, _, rfl, rfl⟩

/-- If no method is overridden, the dialect-imports become absolute imports. -/
example : (transformAst { classes with method := fun _ => some inherited } GetMacros.Ex.interp "/home/u/m.py".toList 3 mod
      { world := [] }).map (fun r => r.1.map fun p => (stmts p.1).map fun t => t.isK .Import) =
    some (.ok [false, true, true]) := by decide +kernel

/-- What happens: `g`, `f`, and `f` again run; there are two new statements; two modules are imported. -/
example : (transformAst classes GetMacros.Ex.interp "/home/u/m.py".toList 3 mod { world := [] }).map
      (fun r => r.1.map fun p => (stmts p.1).map fun t => t.isK .Import) =
    some (.ok [false, true, true, false, false]) := by decide +kernel
example : (transformAst classes GetMacros.Ex.interp "/home/u/m.py".toList 3 mod { world := [] }).map
      (fun r => (r.1.map fun p => p.2, r.2.world)) =
    some (.ok [(2, some 3), (1, some 3), (1, some 3)], ["lib", "p.lib"]) := by decide +kernel

/-- An object that is not a dialect, a dialect-import with an alias. -/
example : (transformAst { classes with isDialect := fun o => o != 2 } GetMacros.Ex.interp "/home/u/m.py".toList 3 mod
      { world := [] }).map (fun r => (r.1.map fun p => p.2, r.2.world)) = some (.error .typeError, ["lib"]) := by
  decide +kernel

/-- The postprocessor of `g` adds a statement. -/
example : (postprocess classes [(2, some 3), (1, some 3)] mod { world := [] }).1.map (fun t => (stmts t).length) =
    .ok 4 := by decide +kernel

end Mcpyrate
