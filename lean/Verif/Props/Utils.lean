import Verif.Lemmas.Utils
/-
C01 gensym, C02 scrub_uuid, C03 flatten, C05 NestingLevelTracker, C08 extract_bindings.
-/
namespace Mcpyrate

/-! ### C01 -/
open Gensym in
/-- C01: over any history of calls, the names returned are pairwise distinct and none of them was
returned before the history began. -/
theorem C01_gensym_fresh (calls : List Basename) (st : State) (outs : List Out) (st' : State)
    (h : run calls st = some (outs, st')) :
    (names outs).Nodup ∧ ∀ s ∈ names outs, s ∉ st.previous :=
  ⟨(run_invariant h).2.1, (run_invariant h).2.2⟩

open Gensym in
/-- C01: every name returned during a history is remembered, nothing else is, and nothing is ever
forgotten. -/
theorem C01_gensym_remembers (calls : List Basename) (st : State) (outs : List Out) (st' : State)
    (h : run calls st = some (outs, st')) (s : List Char) :
    s ∈ st'.previous ↔ s ∈ st.previous ∨ s ∈ names outs :=
  (run_invariant h).1 s

open Gensym in
/-- C01: shape of the result for a `str` or no basename: basename, underscore (unless the basename
is empty), and a UUID delivered by the generator. -/
theorem C01_gensym_shape (b : Basename) (st st' : State) (s : List Char)
    (h : gensym b st = some (.sym s, st')) :
    match b with
    | .none => ∃ u ∈ st.uuids, s = "gensym_".toList ++ u
    | .str [] => ∃ u ∈ st.uuids, s = u
    | .str base => ∃ u ∈ st.uuids, s = base ++ '_' :: u
    | .other truthy len _ => truthy = false ∧ len = some 0 := by
  unfold gensym at h
  split at h
  · simp at h
  · rename_i pre hpre
    split at h
    · simp at h
    · rename_i sym us hs
      simp only [Option.some.injEq, Prod.mk.injEq, Out.sym.injEq] at h
      obtain ⟨rfl, rfl⟩ := h
      obtain ⟨-, u, hu, rfl⟩ := search_some hs
      cases b with
      | none => simp [prefixOf] at hpre; exact ⟨u, hu, by simp [← hpre]⟩
      | str base =>
        cases base with
        | nil => simp [prefixOf] at hpre; exact ⟨u, hu, by simp [hpre]⟩
        | cons c cs => simp [prefixOf] at hpre; exact ⟨u, hu, by simp [← hpre]⟩
      | other t l f =>
        cases t <;> cases l <;> simp [prefixOf] at hpre ⊢
        rename_i n
        cases n <;> simp at hpre ⊢

open Gensym in
/-- C01: a truthy non-`str` basename raises TypeError and leaves the state alone. -/
theorem C01_gensym_typeError (len : Option Nat) (fmt : List Char) (st : State) :
    gensym (.other true len fmt) st = some (.typeError, st) := by
  simp [gensym, prefixOf]

open Gensym in
/-- C01: the call returns as soon as the generator delivers a UUID that makes the name new. -/
theorem C01_gensym_terminates (base : List Char) (st : State) (u : List Char) (hu : u ∈ st.uuids)
    (hnew : base ++ '_' :: u ∉ st.previous) (hb : base ≠ []) :
    ∃ s st', gensym (.str base) st = some (.sym s, st') := by
  have hp : prefixOf (.str base) = some (base ++ ['_']) := by
    cases base with
    | nil => exact absurd rfl hb
    | cons c cs => simp [prefixOf]
  have := search_isSome (pre := base ++ ['_']) (prev := st.previous) u hu (by simpa using hnew)
  simp only [gensym, hp]
  cases h : search (base ++ ['_']) st.previous st.uuids with
  | none => simp [h] at this
  | some r => exact ⟨r.1, _, rfl⟩

-- A history in which the generator repeats itself: the repeated UUID is skipped.
open Gensym in
example : run [.str ['x'], .other true none [], .str ['x'], .str ['y'], .none]
      ⟨[], [['1'], ['1'], ['2'], ['2'], ['3']]⟩ =
    some ([.sym ['x', '_', '1'], .typeError, .sym ['x', '_', '2'], .sym ['y', '_', '2'],
           .sym "gensym_3".toList],
      ⟨["gensym_3".toList, ['y', '_', '2'], ['x', '_', '2'], ['x', '_', '1']], []⟩) := by decide
open Gensym in
example : ∃ s st', gensym (.str ['x']) ⟨[['x', '_', '1']], [['1'], ['2']]⟩ = some (.sym s, st') :=
  C01_gensym_terminates ['x'] _ ['2'] (by decide) (by decide) (by decide)

/-! ### C02 -/
open Scrub in
/-- C02: scrubbing a name made by `gensym` from a nonempty basename gives the basename back.
The UUID is any string of 32 hexadecimal digits. -/
theorem C02_scrub_gensym (T : Tables) (base : List Char) (hb : base ≠ []) (st st' : Gensym.State)
    (hu : ∀ u ∈ st.uuids, u.length = 32 ∧ ∀ c ∈ u, c ∈ "0123456789abcdefABCDEF".toList)
    (s : List Char) (h : Gensym.gensym (.str base) st = some (.sym s, st')) :
    scrubUuid T s = base := by
  have hs := C01_gensym_shape _ _ _ _ h
  cases base with
  | nil => exact absurd rfl hb
  | cons c cs =>
    obtain ⟨u, hm, rfl⟩ := hs
    obtain ⟨hl, hx⟩ := hu u hm
    have hus : '_' ∉ u := fun hc => absurd (hx _ hc) (by decide)
    have hne : u ≠ [] := by rintro rfl; simp at hl
    unfold scrubUuid
    rw [splitLast_append hus]
    simp [hl, int_of_hex T hne hx]

open Scrub in
/-- C02: exactly when and how a string is shortened: it changes to `t` if and only if it is `t`,
an underscore, and 32 characters without underscore that `int(…, 16)` accepts. -/
theorem C02_scrub_iff (T : Tables) (s t : List Char) (hne : s ≠ t) :
    scrubUuid T s = t ↔
      ∃ u, s = t ++ '_' :: u ∧ '_' ∉ u ∧ u.length = 32 ∧ intBase16Ok T u = true := by
  constructor
  · intro h
    unfold scrubUuid at h
    split at h
    · exact absurd h hne
    · rename_i a b hs
      have := splitLast_some hs
      split at h
      · rename_i hl
        split at h
        · rename_i hi
          subst h
          exact ⟨b, this.1, this.2, hl, hi⟩
        · exact absurd h hne
      · exact absurd h hne
  · rintro ⟨u, rfl, hu, hl, hi⟩
    simp [scrubUuid, splitLast_append hu, hl, hi]

open Scrub in
/-- C02: any other string is returned unchanged. -/
theorem C02_scrub_unchanged (T : Tables) (s : List Char)
    (h : ∀ base u, s = base ++ '_' :: u → '_' ∉ u → u.length = 32 → intBase16Ok T u = false) :
    scrubUuid T s = s := by
  unfold scrubUuid
  split
  · rfl
  · rename_i a b hs
    have := splitLast_some hs
    split
    · rename_i hl
      simp [h a b this.1 this.2 hl]
    · rfl

open Scrub in
/-- C02, settled in the negative: scrubbing twice is not the same as scrubbing once. -/
theorem C02_scrub_not_idempotent :
    ∃ s, scrubUuid asciiTables (scrubUuid asciiTables s) ≠ scrubUuid asciiTables s := by
  refine ⟨"x_0123456789abcdef0123456789abcdef_0123456789abcdef0123456789abcdef".toList, ?_⟩
  decide

open Scrub in
/-- C02, settled in the negative: a suffix that is not 32 hexadecimal digits may be scrubbed too,
because `int` accepts a sign and a `0x` prefix. -/
theorem C02_scrub_accepts_nonuuid :
    scrubUuid asciiTables "x_+0x3456789abcdef0123456789abcdef".toList = ['x'] := by decide

-- non-vacuity: a basename that contains underscores, and an actual call
open Scrub in
example :
    let u := "0123456789abcdef0123456789ABCDEF".toList
    Gensym.gensym (.str "my_name".toList) ⟨[], [u]⟩ =
        some (.sym ("my_name_".toList ++ u), ⟨["my_name_".toList ++ u], []⟩) ∧
      scrubUuid asciiTables ("my_name_".toList ++ u) = "my_name".toList := by decide
open Scrub in
example : scrubUuid asciiTables "my_name".toList = "my_name".toList :=
  C02_scrub_unchanged _ _ fun base u h _ hl => by
    have := congrArg List.length h
    rw [show "my_name".toList.length = 7 from rfl] at this
    simp [hl] at this

/-! ### C03 -/
open Flatten in
/-- C03: `flatten` returns the leaves of the nested list in textual order. -/
theorem C03_flatten_leaves {α} (xs : List (Item α)) :
    flatten xs = (leavesOf (tokensL xs)).map .leaf := flatten_leaves xs

open Flatten in
/-- C03: `flatten` is idempotent. -/
theorem C03_flatten_idempotent {α} (xs : List (Item α)) : flatten (flatten xs) = flatten xs := by
  rw [flatten_leaves xs, flatten_map_leaf]

open Flatten in
/-- C03: `flatten` respects concatenation and wrapping. -/
theorem C03_flatten_hom {α} (xs ys : List (Item α)) :
    flatten (xs ++ ys) = flatten xs ++ flatten ys ∧ flatten [.list xs] = flatten xs :=
  ⟨flatten_append xs ys, by simp [flatten, flattenElt]⟩

open Flatten in
/-- C03: the nonrecursive variant removes one level: each item contributes its items if it is a
list, nothing if it is `None`, itself otherwise. -/
theorem C03_flatten_once {α} (xs : List (Item α)) :
    flatten1 xs = xs.flatMap (fun | .list ys => ys | .none => [] | .leaf a => [.leaf a]) := by
  induction xs with
  | nil => rfl
  | cons x xs ih => cases x <;> simp [flatten1, ih]

open Flatten in
/-- C03: the nonrecursive variant agrees with the recursive one when nesting is at most one deep. -/
theorem C03_flatten_once_shallow {α} (xs : List (Item α))
    (h : ∀ x ∈ xs, ∀ ys, x = .list ys → ∀ y ∈ ys, ∃ a, y = .leaf a) : flatten1 xs = flatten xs := by
  induction xs with
  | nil => simp [flatten1, flatten]
  | cons x xs ih =>
    have ih' := ih (fun y hy => h y (by simp [hy]))
    cases x with
    | leaf a => simp [flatten1, flatten, flattenElt, ih']
    | none => simp [flatten1, flatten, flattenElt, ih']
    | list ys =>
      have hy := h (.list ys) (by simp) ys rfl
      have hf : flatten ys = ys := by
        clear h ih ih'
        induction ys with
        | nil => simp [flatten]
        | cons y ys ih =>
          obtain ⟨a, rfl⟩ := hy y (by simp)
          simp [flatten, flattenElt, ih (fun z hz => hy z (by simp [hz]))]
      simp [flatten1, flatten, flattenElt, ih', hf]

open Flatten in
example : flatten [.leaf 1, .list [.none, .list [.leaf 2, .list []], .leaf 3], .none, .leaf 4]
    = [.leaf 1, .leaf 2, .leaf 3, .leaf 4] := by simp [flatten, flattenElt]
open Flatten in
example : flatten1 [.leaf 1, .none, .list [.leaf 2, .leaf 3]] = flatten [.leaf 1, .none, .list [.leaf 2, .leaf 3]] :=
  C03_flatten_once_shallow _ (by simp)

/-! ### C05 -/
open Tracker in
/-- C05: running any program on the tracker gives the lexically scoped meaning: reads see the
level of the innermost active context, and the stack afterwards is exactly the stack before,
whether the program ended normally or by an exception. -/
theorem C05_tracker_scoped (p : Prog) (v : Int) (st : List Int) :
    exec p (v :: st) = some ⟨v :: st, (eval p v).1, (eval p v).2⟩ := exec_eval p v st

open Tracker in
/-- C05: a tracker started at a nonnegative level never shows a negative one. -/
theorem C05_tracker_nonneg (p : Prog) (start : Int) (h : 0 ≤ start) (r : Res)
    (hr : exec p [start] = some r) : ∀ n ∈ r.log, 0 ≤ n := by
  rw [exec_eval] at hr
  cases hr
  exact eval_nonneg p start h

open Tracker in
/-- C05: a request that would make the level negative raises ValueError, does not run the body and
changes nothing; likewise TypeError for a non-integer. -/
theorem C05_tracker_rejects (body : Prog) (v : Int) (st : List Int) :
    (∀ n, n < 0 → exec (.setTo (.int n) body) (v :: st) = some ⟨v :: st, [], some .valueError⟩) ∧
    (∀ d, v + d < 0 → exec (.changedBy (.int d) body) (v :: st)
      = some ⟨v :: st, [], some .valueError⟩) ∧
    exec (.setTo .other body) (v :: st) = some ⟨v :: st, [], some .typeError⟩ ∧
    exec (.changedBy .other body) (v :: st) = some ⟨v :: st, [], some .typeError⟩ := by
  refine ⟨?_, ?_, ?_, ?_⟩
  · intro n hn
    have : ¬ 0 ≤ n := by omega
    simp [exec_eval, eval, this]
  · intro n hn
    have : ¬ 0 ≤ v + n := by omega
    simp [exec_eval, eval, this]
  · simp [exec_eval, eval]
  · simp [exec_eval, eval]

open Tracker in
example : exec (.seq (.tryExcept (.changedBy (.int 2) (.seq .read (.setTo (.int 7)
      (.seq .read (.raise 0))))) .read) (.changedBy (.int (-1)) .read)) [0]
    = some ⟨[0], [2, 7, 0], some .valueError⟩ := by decide

/-! ### C08 -/
open ExtractBindings in
/-- C08: a name is in the result with a value exactly when it has that value in the bindings and the
value is one of the given functions. -/
theorem C08_extract_bindings_mem {φ : Type} [DecidableEq φ] (b : List (String × φ)) (fs : List φ)
    (g : Bool) (name : String) (f : φ) :
    (name, f) ∈ extractBindings b fs g ↔ (name, f) ∈ b ∧ f ∈ fs := by
  simp [extractBindings]

open ExtractBindings in
/-- C08: the order is that of the bindings and no name is duplicated: the result is a sublist. -/
theorem C08_extract_bindings_order {φ : Type} [DecidableEq φ] (b : List (String × φ)) (fs : List φ)
    (g : Bool) : (extractBindings b fs g).Sublist b := List.filter_sublist

open ExtractBindings in
/-- C08: the result depends on the set of functions only, and not on the `global_only` flag. -/
theorem C08_extract_bindings_set {φ : Type} [DecidableEq φ] (b : List (String × φ)) (fs gs : List φ)
    (h : ∀ f, f ∈ fs ↔ f ∈ gs) (g g' : Bool) :
    extractBindings b fs g = extractBindings b gs g' := by
  simp [extractBindings, h]

open ExtractBindings in
example : extractBindings [("a", 1), ("b", 2), ("c", 1)] [1, 5] = [("a", 1), ("c", 1)] := by decide
open ExtractBindings in
example : extractBindings [("a", 1), ("b", 2), ("c", 1)] [1, 5] true = extractBindings [("a", 1), ("b", 2), ("c", 1)] [5, 1, 1] :=
  C08_extract_bindings_set _ _ _ (by simp [or_comm]) _ _

end Mcpyrate
