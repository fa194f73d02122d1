import Verif.Spec.CaptureHistory
import Verif.Lemmas.Captures
import Verif.Lemmas.Utils
namespace Mcpyrate.Quotes
open Py
variable {σ : Type}

theorem Later.refl (s : St σ) : Later s s := ⟨fun _ h => h, fun _ _ h => h⟩
theorem Later.trans {a b c : St σ} (h : Later a b) (h' : Later b c) : Later a c :=
  ⟨fun n hn => h'.names n (h.names n hn), fun u m hm => h'.bound u m (h.bound u m hm)⟩

namespace Forward
variable {α β : Type}

theorem pure (a : α) : Forward (Pure.pure a : Q σ α) := by
  intro s r s' h; cases h; exact .refl s
theorem throw (e : Err) : Forward (M.throw e : Q σ α) := by
  intro s r s' h; cases h; exact .refl s
theorem lift (x : Except Err α) : Forward (Quotes.lift x : Q σ α) := by
  cases x with
  | error e => exact throw e
  | ok a => exact pure a
theorem bind {m : Q σ α} {f : α → Q σ β} (hm : Forward m) (hf : ∀ a, Forward (f a)) : Forward (m >>= f) := by
  intro s r s' h
  change M.bind m f s = _ at h
  unfold M.bind at h
  cases e : m s with
  | none => rw [e] at h; cases h
  | some p =>
    obtain ⟨r1, s1⟩ := p
    rw [e] at h
    cases r1 with
    | error x => cases h; exact hm _ _ _ e
    | ok a => exact (hm _ _ _ e).trans (hf a _ _ _ h)

theorem gensymQ (b : String) : Forward (gensymQ b : Q σ String) := by
  intro s r s' h
  unfold Quotes.gensymQ at h
  unfold Gensym.gensym at h
  cases hp : Gensym.prefixOf (.str b.toList) with
  | none => rw [hp] at h; cases h; exact .refl s
  | some pre =>
    rw [hp] at h
    dsimp only at h
    cases hs : Gensym.search pre s.gensym.previous s.gensym.uuids with
    | none => rw [hs] at h; cases h
    | some q =>
      obtain ⟨x, us⟩ := q
      rw [hs] at h
      cases h
      exact ⟨fun n hn => List.mem_cons_of_mem _ hn, fun _ _ h => h⟩

theorem captureMacro (H : Host σ) (f : Obj) (n : String) : Forward (captureMacro H f n) := by
  unfold Quotes.captureMacro
  split
  · exact throw _
  · exact bind (lift _) fun _ => bind (gensymQ _) fun _ => pure _

theorem lookupMacro (H : Host σ) (u : String) (x : Obj) : Forward (lookupMacro H u x) := by
  intro s r s' h
  unfold Quotes.lookupMacro at h
  cases hg : s.globals.get u with
  | some m => rw [hg] at h; cases h; exact .refl s
  | none =>
    rw [hg] at h
    dsimp only at h
    split at h
    · split at h
      · cases h; exact .refl s
      · cases h
        refine ⟨fun _ h => h, fun v m hm => ?_⟩
        show (s.globals.set u _).get v = some m
        rw [Dict.get_set]
        split
        · rename_i hv; rw [← hv, hg] at hm; cases hm
        · exact hm
    · cases h; exact .refl s

theorem captureAsMacro (H : Host σ) (f : Obj) (n : String) : Forward (captureAsMacro H f n) := by
  unfold Quotes.captureAsMacro
  split
  · exact throw _
  · exact bind (lift _) fun _ => bind (gensymQ _) fun _ => lookupMacro H _ _

end Forward

/-! ### astify -/
mutual
theorem astify_forward (H : Host σ) (E : Option (String → Option Obj)) (x : Obj) : Forward (astify H E x) := by
  match x with
  | .const c => cases c <;> first | exact Forward.throw _ | exact Forward.pure _
  | .list xs => exact .bind (astifyL_forward H E xs) fun _ => .pure _
  | .tuple xs => exact .bind (astifyL_forward H E xs) fun _ => .pure _
  | .set xs => exact .bind (astifyL_forward H E xs) fun _ => .pure _
  | .dict ks vs =>
    exact .bind (astifyL_forward H E ks) fun _ => .bind (astifyL_forward H E vs) fun _ => .pure _
  | .ref _ => exact .throw _
  | .ext _ => exact .throw _
  | .node (.py k) l fs => exact .bind (astifyF_forward H E fs) fun _ => .pure _
  | .node (.marker n) l fs =>
    rw [astify]
    split
    · exact .bind (.lift _) fun _ => .pure _
    split
    · refine .bind (.lift _) fun _ => .bind (.lift _) fun c => ?_
      cases c <;> first | exact .throw _ | exact .pure _
    split
    · refine .bind (.lift _) fun _ => .bind (.lift _) fun c => ?_
      cases c <;> first | exact .throw _ | exact .pure _
    split
    · exact .bind (.lift _) fun _ => .pure _
    split
    · exact .bind (.lift _) fun _ => .pure _
    split
    · refine .bind (.lift _) fun b => ?_
      split
      · exact .captureMacro _ _ _
      · refine .bind (.lift _) fun c => ?_
        cases c <;> first | exact .throw _ | exact .pure _
    split
    · exact .bind (astifyF_forward H E fs) fun _ => .pure _
    · exact .throw _
  termination_by structural x
theorem astifyL_forward (H : Host σ) (E : Option (String → Option Obj)) (xs : List Obj) : Forward (astifyL H E xs) := by
  match xs with
  | [] => exact .pure _
  | x :: xs => exact .bind (astify_forward H E x) fun _ => .bind (astifyL_forward H E xs) fun _ => .pure _
  termination_by structural xs
theorem astifyF_forward (H : Host σ) (E : Option (String → Option Obj)) (fs : List (F × Obj)) :
    Forward (astifyF H E fs) := by
  match fs with
  | [] => exact .pure _
  | (f, x) :: fs => exact .bind (astify_forward H E x) fun _ => .bind (astifyF_forward H E fs) fun _ => .pure _
  termination_by structural fs
end

/-! ### Evaluation -/
theorem getAttr_forward {H : Host σ} (hT : Tame H) (x : Obj) (a : String) : Forward (getAttr H x a) := by
  unfold getAttr
  split
  · split
    · exact .pure _
    · exact hT.attr _ _
  · split
    · exact .pure _
    · exact hT.attr _ _
  · split
    · exact .pure _
    · exact hT.attr _ _
  · exact hT.attr _ _

theorem runtime_forward {H : Host σ} (hT : Tame H) (fn : String) (as : List Obj) (ks : List (String × Obj)) :
    Forward (runtime H fn as ks) := by
  unfold runtime
  split
  · exact astify_forward H _ _
  · exact .lift _
  · exact .lift _
  · exact .lift _
  · exact .lift _
  · exact .lift _
  · exact .lift _
  · exact .lookupMacro _ _ _
  · exact .lift _
  · exact hT.call _ _ _

theorem call_forward {H : Host σ} (hT : Tame H) (f : Obj) (as : List Obj) (ks : List (String × Obj)) :
    Forward (call H f as ks) := by
  unfold call
  split
  · split
    · exact hT.call _ _ _
    · split
      · exact .pure _
      · exact hT.call _ _ _
  · split
    · exact .pure _
    · exact .throw _
  · exact runtime_forward hT _ _ _
  · split
    · exact .pure _
    · exact hT.call _ _ _
  · exact hT.call _ _ _

/-- All actions in a list are forward. -/
def ForwardL (l : List (Option (Q σ Obj))) : Prop := ∀ m, some m ∈ l → Forward m

theorem runDict_forward (ks vs : List (Option (Q σ Obj))) (hk : ForwardL ks) (hv : ForwardL vs) :
    Forward (runDict ks vs) := by
  induction ks generalizing vs with
  | nil =>
    cases vs with
    | nil => exact .pure _
    | cons v vs => exact .throw _
  | cons k ks ih =>
    have hk' : ForwardL ks := fun m hm => hk m (by simp [hm])
    match vs, hv with
    | [], _ => cases k <;> exact .throw _
    | none :: vs, _ => cases k <;> exact .throw _
    | some v :: vs, hv =>
      have hv' : ForwardL vs := fun m hm => hv m (by simp [hm])
      cases k with
      | none => exact .bind (hv v (by simp)) fun _ => .bind (ih vs hk' hv') fun _ => .pure _
      | some k =>
        exact .bind (hk k (by simp)) fun _ => .bind (hv v (by simp)) fun _ => .bind (ih vs hk' hv') fun _ => .pure _

mutual
theorem eval_forward {H : Host σ} (hT : Tame H) (x : Obj) : Forward (eval H x) := by
  match x with
  | .const _ | .list _ | .tuple _ | .set _ | .dict _ _ | .ref _ | .ext _ => exact .throw _
  | .node (.marker n) l fs => exact hT.expr _
  | .node (.py k) l fs =>
    cases k <;> first
      | exact hT.expr _
      | exact Forward.bind (evalListAt_forward hT .elts fs) fun _ => .pure _
      | exact Forward.bind (evalListAt_forward hT .elts fs) fun _ => .lift _
      | exact Forward.bind (evalAt_forward hT .func fs) fun _ => .bind (evalListAt_forward hT .args fs) fun _ =>
          .bind (evalKwsAt_forward hT fs) fun _ => call_forward hT _ _ _
      | skip
    case Constant =>
      rw [eval]
      split
      · exact .pure _
      · exact .throw _
    case Name =>
      rw [eval]
      split
      · exact hT.name _
      · exact .throw _
    case Attribute =>
      rw [eval]
      refine .bind (evalAt_forward hT .value fs) fun v => ?_
      split
      · exact getAttr_forward hT _ _
      · exact .throw _
    case Dict =>
      rw [eval]
      have hk := actsAt_forward hT .keys fs
      have hv := actsAt_forward hT .values fs
      split
      · rename_i ks vs h1 h2
        exact .bind (runDict_forward ks vs (hk ks h1) (hv vs h2)) fun _ => .lift _
      · exact .throw _
  termination_by structural x
theorem evalAt_forward {H : Host σ} (hT : Tame H) (f : F) (fs : List (F × Obj)) : Forward (evalAt H f fs) := by
  match fs with
  | [] => exact .throw _
  | (g, x) :: r =>
    rw [evalAt]
    split
    · exact eval_forward hT x
    · exact evalAt_forward hT f r
  termination_by structural fs
theorem evalListAt_forward {H : Host σ} (hT : Tame H) (f : F) (fs : List (F × Obj)) :
    Forward (evalListAt H f fs) := by
  match fs with
  | [] => exact .throw _
  | (g, .list xs) :: r =>
    rw [evalListAt]
    split
    · exact evalL_forward hT xs
    · exact evalListAt_forward hT f r
  | (g, .const _) :: r | (g, .tuple _) :: r | (g, .set _) :: r | (g, .dict _ _) :: r | (g, .node _ _ _) :: r
  | (g, .ref _) :: r | (g, .ext _) :: r =>
    show Forward (if g = f then M.throw .typeError else evalListAt H f r)
    split
    · exact .throw _
    · exact evalListAt_forward hT f r
  termination_by structural fs
theorem evalL_forward {H : Host σ} (hT : Tame H) (xs : List Obj) : Forward (evalL H xs) := by
  match xs with
  | [] => exact .pure _
  | x :: xs =>
    have h1 := eval_forward hT x
    have h2 := evalL_forward hT xs
    have h0 : Forward (do let v ← eval H x; return v :: (← evalL H xs)) := .bind h1 fun _ => .bind h2 fun _ => .pure _
    match x with
    | .const _ | .list _ | .tuple _ | .set _ | .dict _ _ | .ref _ | .ext _ | .node (.marker _) _ _ => exact h0
    | .node (.py k) l fs =>
      by_cases hk : k = .Starred
      · subst hk
        exact .bind (evalAt_forward hT .value fs) fun _ => .bind (.lift _) fun _ => .bind h2 fun _ => .pure _
      · rw [evalL_cons (by
          show (K.Starred == k) = false
          exact beq_false_of_ne (Ne.symm hk))]; exact h0
  termination_by structural xs
theorem evalKwsAt_forward {H : Host σ} (hT : Tame H) (fs : List (F × Obj)) : Forward (evalKwsAt H fs) := by
  match fs with
  | [] => exact .throw _
  | (g, .list xs) :: r =>
    rw [evalKwsAt]
    split
    · exact evalKws_forward hT xs
    · exact evalKwsAt_forward hT r
  | (g, .const _) :: r | (g, .tuple _) :: r | (g, .set _) :: r | (g, .dict _ _) :: r | (g, .node _ _ _) :: r
  | (g, .ref _) :: r | (g, .ext _) :: r =>
    show Forward (if g = .keywords then M.throw .typeError else evalKwsAt H r)
    split
    · exact .throw _
    · exact evalKwsAt_forward hT r
  termination_by structural fs
theorem evalKws_forward {H : Host σ} (hT : Tame H) (xs : List Obj) : Forward (evalKws H xs) := by
  match xs with
  | [] => exact .pure _
  | .const _ :: xs | .list _ :: xs | .tuple _ :: xs | .set _ :: xs | .dict _ _ :: xs | .ref _ :: xs | .ext _ :: xs
  | .node (.marker _) _ _ :: xs => exact .throw _
  | .node (.py k) l fs :: xs =>
    have h2 := evalKws_forward hT xs
    by_cases hk : k = .keyword
    · subst hk
      rw [evalKws]
      split
      · exact .bind (evalAt_forward hT .value fs) fun _ => .bind h2 fun _ => .pure _
      · exact .bind (evalAt_forward hT .value fs) fun _ => .bind (.lift _) fun _ => .bind h2 fun _ => .pure _
      · exact .throw _
    · cases k <;> first | exact absurd rfl hk | exact .throw _
  termination_by structural xs
theorem actsAt_forward {H : Host σ} (hT : Tame H) (f : F) (fs : List (F × Obj)) :
    ∀ l, actsAt H f fs = some l → ForwardL l := by
  match fs with
  | [] => intro l h; cases h
  | (g, .list xs) :: r =>
    rw [actsAt]
    split
    · intro l h; cases h; exact acts_forward hT xs
    · exact actsAt_forward hT f r
  | (g, .const _) :: r | (g, .tuple _) :: r | (g, .set _) :: r | (g, .dict _ _) :: r | (g, .node _ _ _) :: r
  | (g, .ref _) :: r | (g, .ext _) :: r =>
    show ∀ l, (if g = f then none else actsAt H f r) = some l → ForwardL l
    split
    · intro l h; cases h
    · exact actsAt_forward hT f r
  termination_by structural fs
theorem acts_forward {H : Host σ} (hT : Tame H) (xs : List Obj) : ForwardL (acts H xs) := by
  match xs with
  | [] => intro m hm; cases hm
  | x :: xs =>
    have h1 := eval_forward hT x
    have h2 := acts_forward hT xs
    intro m hm
    have : acts H (x :: xs) = none :: acts H xs ∨ acts H (x :: xs) = some (eval H x) :: acts H xs := by
      cases x with
      | const c => cases c <;> first | exact .inl rfl | exact .inr rfl
      | _ => exact .inr rfl
    rcases this with e | e <;> rw [e] at hm
    · exact h2 m (by simpa using hm)
    · rcases List.mem_cons.1 hm with hm | hm
      · rw [Option.some.inj hm]; exact h1
      · exact h2 m hm
  termination_by structural xs
end

/-! ### unastify -/
theorem getAttrs_forward {H : Host σ} (hT : Tame H) (as : List String) (x : Obj) : Forward (getAttrs H x as) := by
  induction as generalizing x with
  | nil => exact .pure _
  | cons a as ih => exact .bind (getAttr_forward hT x a) fun y => ih y

theorem lookupThing_forward {H : Host σ} (hT : Tame H) (p : Option (List String)) : Forward (lookupThing H p) := by
  unfold lookupThing
  split
  · split
    · split
      · exact getAttrs_forward hT _ _
      · split
        · exact .throw _
        · exact getAttrs_forward hT _ _
    · exact .throw _
  · exact .throw _

theorem runPairs_forward (ks vs : List (Q σ Obj)) (hk : ∀ m ∈ ks, Forward m) (hv : ∀ m ∈ vs, Forward m) :
    Forward (runPairs ks vs) := by
  induction ks generalizing vs with
  | nil => exact .pure _
  | cons k ks ih =>
    cases vs with
    | nil => exact .pure _
    | cons v vs =>
      exact .bind (hk k (by simp)) fun _ => .bind (hv v (by simp)) fun _ =>
        .bind (ih vs (fun m hm => hk m (by simp [hm])) (fun m hm => hv m (by simp [hm]))) fun _ => .pure _

theorem uncall_forward {H : Host σ} (hT : Tame H) (n : String) (fs : List (F × Obj)) (m : Q σ Obj)
    (h : uncall H n fs = some m) : Forward m := by
  unfold uncall at h
  split at h
  · cases h; exact .bind (.lift _) fun _ => .pure _
  split at h
  · cases h; exact .bind (.lift _) fun _ => .bind (.lift _) fun _ => .pure _
  split at h
  · cases h; exact .bind (.lift _) fun _ => .bind (.lift _) fun _ => .pure _
  split at h
  · cases h; exact .bind (.lift _) fun _ => .pure _
  split at h
  · cases h; exact .bind (.lift _) fun _ => .pure _
  split at h
  · cases h; exact .bind (.lift _) fun _ => .bind (.lift _) fun _ => .pure _
  split at h
  · cases h
    refine .bind (.lift _) fun key => ?_
    split
    · exact .bind (.lookupMacro _ _ _) fun _ => .pure _
    · exact hT.call _ _ _
    · exact .throw _
  · cases h

mutual
theorem unastify_forward {H : Host σ} (hT : Tame H) (x : Obj) : Forward (unastify H x) := by
  match x with
  | .const _ | .tuple _ | .set _ | .dict _ _ | .ref _ | .ext _ => exact .throw _
  | .list xs => exact .bind (unastifyL_forward hT xs) fun _ => .pure _
  | .node (.marker n) l fs => exact .throw _
  | .node (.py k) l fs =>
    cases k <;> first
      | exact Forward.throw _
      | exact Forward.lift _
      | exact Forward.bind (unastifyListAt_forward hT .elts fs) fun _ => .pure _
      | exact Forward.bind (unastifyListAt_forward hT .elts fs) fun _ => .lift _
      | exact Forward.bind (.lift _) fun _ => .bind (unastifyAt_forward hT .value fs) fun _ => .pure _
      | skip
    case Dict =>
      rw [unastify]
      have hk := unastifyActs_forward hT .keys fs
      have hv := unastifyActs_forward hT .values fs
      split
      · rename_i ks vs h1 h2
        exact .bind (runPairs_forward ks vs (hk ks h1) (hv vs h2)) fun _ => .lift _
      · exact .throw _
    case Call =>
      have h1 := unastifyArg_forward hT fs
      have h2 := unastifyListAt_forward hT .args fs
      have h3 := unastifyPairsAt_forward hT fs
      rw [unastify]
      split
      · exact .throw _
      · rename_i f _
        split
        · exact h1
        · split
          · rename_i m hm
            split at hm
            · exact uncall_forward hT _ _ _ hm
            · cases hm
          · exact .bind (lookupThing_forward hT _) fun _ => .bind h2 fun _ => .bind h3 fun _ =>
              .bind (.lift _) fun _ => .bind (call_forward hT _ _ _) fun _ => .lift _
  termination_by structural x
theorem unastifyAt_forward {H : Host σ} (hT : Tame H) (f : F) (fs : List (F × Obj)) :
    Forward (unastifyAt H f fs) := by
  match fs with
  | [] => exact .throw _
  | (g, x) :: r =>
    rw [unastifyAt]
    split
    · exact unastify_forward hT x
    · exact unastifyAt_forward hT f r
  termination_by structural fs
theorem unastifyArg_forward {H : Host σ} (hT : Tame H) (fs : List (F × Obj)) : Forward (unastifyArg H fs) := by
  match fs with
  | [] => exact .throw _
  | (g, .list []) :: r =>
    show Forward (if g = .args then M.throw .indexError else unastifyArg H r)
    split
    · exact .throw _
    · exact unastifyArg_forward hT r
  | (g, .list (y :: ys)) :: r =>
    show Forward (if g = .args then unastify H y else unastifyArg H r)
    split
    · exact unastify_forward hT y
    · exact unastifyArg_forward hT r
  | (g, .const _) :: r | (g, .tuple _) :: r | (g, .set _) :: r | (g, .dict _ _) :: r | (g, .node _ _ _) :: r
  | (g, .ref _) :: r | (g, .ext _) :: r =>
    show Forward (if g = .args then M.throw .typeError else unastifyArg H r)
    split
    · exact .throw _
    · exact unastifyArg_forward hT r
  termination_by structural fs
theorem unastifyListAt_forward {H : Host σ} (hT : Tame H) (f : F) (fs : List (F × Obj)) :
    Forward (unastifyListAt H f fs) := by
  match fs with
  | [] => exact .throw _
  | (g, .list xs) :: r =>
    show Forward (if g = f then unastifyL H xs else unastifyListAt H f r)
    split
    · exact unastifyL_forward hT xs
    · exact unastifyListAt_forward hT f r
  | (g, .const _) :: r | (g, .tuple _) :: r | (g, .set _) :: r | (g, .dict _ _) :: r | (g, .node _ _ _) :: r
  | (g, .ref _) :: r | (g, .ext _) :: r =>
    show Forward (if g = f then M.throw .typeError else unastifyListAt H f r)
    split
    · exact .throw _
    · exact unastifyListAt_forward hT f r
  termination_by structural fs
theorem unastifyL_forward {H : Host σ} (hT : Tame H) (xs : List Obj) : Forward (unastifyL H xs) := by
  match xs with
  | [] => exact .pure _
  | x :: xs => exact .bind (unastify_forward hT x) fun _ => .bind (unastifyL_forward hT xs) fun _ => .pure _
  termination_by structural xs
theorem unastifyPairsAt_forward {H : Host σ} (hT : Tame H) (fs : List (F × Obj)) :
    Forward (unastifyPairsAt H fs) := by
  match fs with
  | [] => exact .throw _
  | (g, .list xs) :: r =>
    show Forward (if g = .keywords then unastifyPairs H xs else unastifyPairsAt H r)
    split
    · exact unastifyPairs_forward hT xs
    · exact unastifyPairsAt_forward hT r
  | (g, .const _) :: r | (g, .tuple _) :: r | (g, .set _) :: r | (g, .dict _ _) :: r | (g, .node _ _ _) :: r
  | (g, .ref _) :: r | (g, .ext _) :: r =>
    show Forward (if g = .keywords then M.throw .typeError else unastifyPairsAt H r)
    split
    · exact .throw _
    · exact unastifyPairsAt_forward hT r
  termination_by structural fs
theorem unastifyPairs_forward {H : Host σ} (hT : Tame H) (xs : List Obj) : Forward (unastifyPairs H xs) := by
  match xs with
  | [] => exact .pure _
  | .const _ :: xs | .list _ :: xs | .tuple _ :: xs | .set _ :: xs | .dict _ _ :: xs | .ref _ :: xs | .ext _ :: xs
  | .node (.marker _) _ _ :: xs => exact .throw _
  | .node (.py k) l fs :: xs =>
    have h2 := unastifyPairs_forward hT xs
    by_cases hk : k = .keyword
    · subst hk
      exact .bind (.lift _) fun _ => .bind (unastifyAt_forward hT .value fs) fun _ => .bind h2 fun _ => .pure _
    · cases k <;> first | exact absurd rfl hk | exact .throw _
  termination_by structural xs
theorem unastifyActs_forward {H : Host σ} (hT : Tame H) (f : F) (fs : List (F × Obj)) :
    ∀ l, unastifyActs H f fs = some l → ∀ m ∈ l, Forward m := by
  match fs with
  | [] => intro l h; cases h
  | (g, .list xs) :: r =>
    show ∀ l, (if g = f then some (unastifyActsL H xs) else unastifyActs H f r) = some l → ∀ m ∈ l, Forward m
    split
    · intro l h; cases h; exact unastifyActsL_forward hT xs
    · exact unastifyActs_forward hT f r
  | (g, .const _) :: r | (g, .tuple _) :: r | (g, .set _) :: r | (g, .dict _ _) :: r | (g, .node _ _ _) :: r
  | (g, .ref _) :: r | (g, .ext _) :: r =>
    show ∀ l, (if g = f then none else unastifyActs H f r) = some l → ∀ m ∈ l, Forward m
    split
    · intro l h; cases h
    · exact unastifyActs_forward hT f r
  termination_by structural fs
theorem unastifyActsL_forward {H : Host σ} (hT : Tame H) (xs : List Obj) : ∀ m ∈ unastifyActsL H xs, Forward m := by
  match xs with
  | [] => intro m hm; cases hm
  | x :: xs =>
    have h1 := unastify_forward hT x
    have h2 := unastifyActsL_forward hT xs
    intro m hm
    rcases List.mem_cons.1 (show m ∈ unastify H x :: unastifyActsL H xs from hm) with rfl | hm
    · exact h1
    · exact h2 m hm
  termination_by structural xs
end

end Mcpyrate.Quotes

namespace Mcpyrate.Quotes
open Py
variable {σ : Type}

/-! ### Histories -/

theorem gensymQ_ok {b u : String} {s s' : St σ} (h : gensymQ b s = some (.ok u, s')) :
    u.toList ∉ s.gensym.previous ∧ u.toList ∈ s'.gensym.previous ∧ s'.globals = s.globals := by
  unfold gensymQ Gensym.gensym at h
  cases hp : Gensym.prefixOf (.str b.toList) with
  | none => rw [hp] at h; cases h
  | some pre =>
    rw [hp] at h
    dsimp only at h
    cases hs : Gensym.search pre s.gensym.previous s.gensym.uuids with
    | none => rw [hs] at h; cases h
    | some q =>
      obtain ⟨x, us⟩ := q
      rw [hs] at h
      cases h
      have := (Gensym.search_some hs).1
      exact ⟨by simpa using this, by simp, rfl⟩

theorem gensymQ_globals {b : String} {r : Except Err String} {s s' : St σ} (h : gensymQ b s = some (r, s')) :
    s'.globals = s.globals := by
  unfold gensymQ at h
  split at h
  · cases h
  · cases h; rfl
  · cases h; rfl

theorem captureMacro_globals {H : Host σ} {f : Obj} {n : String} {r : Except Err Obj} {s s' : St σ}
    (h : captureMacro H f n s = some (r, s')) : s'.globals = s.globals := by
  unfold captureMacro at h
  cases hc : H.callable f with
  | false => rw [hc] at h; cases h; rfl
  | true =>
    rw [hc] at h
    cases hp : H.pickle f with
    | error e => rw [hp] at h; cases h; rfl
    | ok b =>
      rw [hp] at h
      cases hg : gensymQ (scrub H n) s with
      | none =>
        have : (gensymQ (scrub H n) >>= fun unique => (pure (macroCode (scrub H n) unique b) : Q σ Obj)) s =
          some (r, s') := h
        change M.bind _ _ s = _ at this
        unfold M.bind at this
        rw [hg] at this; cases this
      | some q =>
        obtain ⟨r1, s1⟩ := q
        have : (gensymQ (scrub H n) >>= fun unique => (pure (macroCode (scrub H n) unique b) : Q σ Obj)) s =
          some (r, s') := h
        change M.bind _ _ s = _ at this
        unfold M.bind at this
        rw [hg] at this
        cases r1 <;> cases this <;> exact gensymQ_globals hg

theorem eval_macroCode {H : Host σ} (hH : Imported H) (k : MacroKey) :
    eval H k.code = lookupMacro H k.unique (.bytes k.frozen) := by
  show eval H (.node (.py .Call) {} [(.func, quotesAttr "lookup_macro"), (.args, .list _), (.keywords, .list [])]) = _
  rw [eval_call, eval_quotesAttr hH (by decide)]
  rfl

theorem keyOf_macroCode (n u : String) (b : List Nat) : keyOf (macroCode n u b) = some ⟨n, u, b⟩ := by
  unfold keyOf
  rw [isCapturedMacro_some.2 (frozenMacro_macroCode n u b)]

/-- All about one lookup. -/
theorem lookupMacro_spec {H : Host σ} {u : String} {b : List Nat} {r : Except Err Obj} {s s' : St σ}
    (h : lookupMacro H u (.bytes b) s = some (r, s')) :
    (∃ e, r = .error e ∧ s' = s ∧ s.globals.get u = none ∧ H.unpickle b = .error e) ∨
    (r = .ok (nameNode u) ∧ s' = s ∧ ∃ m, s.globals.get u = some m) ∨
    (r = .ok (nameNode u) ∧ s.globals.get u = none ∧
      ∃ m, H.unpickle b = .ok m ∧ s' = { s with globals := s.globals.set u m }) := by
  unfold lookupMacro at h
  cases hg : s.globals.get u with
  | some m => rw [hg] at h; cases h; exact .inr (.inl ⟨rfl, rfl, m, rfl⟩)
  | none =>
    rw [hg] at h
    dsimp only at h
    cases hu : H.unpickle b with
    | error e => rw [hu] at h; cases h; exact .inl ⟨e, rfl, rfl, rfl, rfl⟩
    | ok m => rw [hu] at h; cases h; exact .inr (.inr ⟨rfl, rfl, m, rfl, rfl⟩)

/-- The captures made in this process. -/
def own (L : List MacroKey) (p : Process σ) : List String := (p.captures.filter (fun k => decide (k ∉ L))).map (·.unique)

/-- What holds during a history in which the captures `L` come from elsewhere. -/
structure Inv (H : Host σ) (L : List MacroKey) (p : Process σ) : Prop where
  known : ∀ u ∈ own L p, u.toList ∈ p.st.gensym.previous
  nodup : (own L p).Nodup
  bound : ∀ u m, p.st.globals.get u = some m → ∃ k ∈ p.looked, k.unique = u ∧ H.unpickle k.frozen = .ok m
  looked : ∀ k ∈ p.looked, k ∈ p.captures ∧ ∃ m, p.st.globals.get k.unique = some m

theorem own_append (L : List MacroKey) (p : Process σ) (st : St σ) (ks : List MacroKey) (looked : List MacroKey) :
    own L { st := st, captures := p.captures ++ ks, looked := looked } =
      own L p ++ (ks.filter (fun k => decide (k ∉ L))).map (·.unique) := by
  unfold own; simp only [List.filter_append, List.map_append]

theorem inv_state {H : Host σ} {L : List MacroKey} {p : Process σ} (h : Inv H L p) {s : St σ} (hl : Later p.st s)
    (hg : s.globals = p.st.globals) : Inv H L { p with st := s } :=
  ⟨fun u hu => hl.names _ (h.known u hu), h.nodup, fun u m hm => h.bound u m (by rw [← hg]; exact hm),
    fun k hk => ⟨(h.looked k hk).1, by rw [show ({ p with st := s } : Process σ).st.globals = _ from hg]; exact (h.looked k hk).2⟩⟩

/-- A new capture of this process. -/
theorem inv_new {H : Host σ} {L : List MacroKey} {p : Process σ} (h : Inv H L p) {s : St σ} (hl : Later p.st s)
    (hg : s.globals = p.st.globals) (k : MacroKey) (hn : k.unique.toList ∉ p.st.gensym.previous)
    (hk : k.unique.toList ∈ s.gensym.previous) :
    Inv H L { p with st := s, captures := p.captures ++ [k] } := by
  have hs := inv_state h hl hg
  have ho := own_append L p s [k] p.looked
  by_cases hL : k ∈ L
  · have e : own L { p with st := s, captures := p.captures ++ [k] } = own L p := by rw [ho]; simp [hL]
    exact ⟨by rw [e]; exact hs.known, by rw [e]; exact h.nodup, hs.bound,
      fun k' hk' => ⟨List.mem_append_left _ (hs.looked k' hk').1, (hs.looked k' hk').2⟩⟩
  · have e : own L { p with st := s, captures := p.captures ++ [k] } = own L p ++ [k.unique] := by rw [ho]; simp [hL]
    refine ⟨?_, ?_, hs.bound, fun k' hk' => ⟨List.mem_append_left _ (hs.looked k' hk').1, (hs.looked k' hk').2⟩⟩
    · rw [e]
      intro u hu
      rcases List.mem_append.1 hu with hu | hu
      · exact hs.known u hu
      · simp only [List.mem_singleton] at hu; subst hu; exact hk
    · rw [e, List.nodup_append]
      refine ⟨h.nodup, by simp, ?_⟩
      intro a ha b hb hab
      simp only [List.mem_singleton] at hb
      subst hb; subst hab
      exact hn (h.known _ ha)

/-- A successful lookup of a capture that is present. -/
theorem inv_lookup {H : Host σ} {L : List MacroKey} {p : Process σ} (h : Inv H L p) {k : MacroKey} (hk : k ∈ p.captures)
    {x : Obj} {s : St σ} (hl : lookupMacro H k.unique (.bytes k.frozen) p.st = some (.ok x, s)) :
    Inv H L { p with st := s, looked := p.looked ++ [k] } := by
  rcases lookupMacro_spec hl with ⟨e, h1, -⟩ | ⟨-, rfl, m, hm⟩ | ⟨-, hn, m, hu, rfl⟩
  · cases h1
  · refine ⟨h.known, h.nodup, fun u m hm => ?_, fun k' hk' => ?_⟩
    · obtain ⟨k', h1, h2⟩ := h.bound u m hm
      exact ⟨k', List.mem_append_left _ h1, h2⟩
    · rcases List.mem_append.1 hk' with h1 | h1
      · exact h.looked k' h1
      · simp only [List.mem_singleton] at h1; subst h1; exact ⟨hk, m, hm⟩
  · refine ⟨h.known, h.nodup, fun u m' hm => ?_, fun k' hk' => ?_⟩
    · change (p.st.globals.set k.unique m).get u = some m' at hm
      rw [Dict.get_set] at hm
      split at hm
      · rename_i e; cases hm; exact ⟨k, by simp, e, hu⟩
      · obtain ⟨k', h1, h2⟩ := h.bound u m' hm
        exact ⟨k', List.mem_append_left _ h1, h2⟩
    · refine ⟨?_, ?_⟩
      · rcases List.mem_append.1 hk' with h1 | h1
        · exact (h.looked k' h1).1
        · simp only [List.mem_singleton] at h1; subst h1; exact hk
      · show ∃ m', (p.st.globals.set k.unique m).get k'.unique = some m'
        rw [Dict.get_set]
        split
        · exact ⟨m, rfl⟩
        · rename_i hne
          rcases List.mem_append.1 hk' with h1 | h1
          · exact (h.looked k' h1).2
          · simp only [List.mem_singleton] at h1; subst h1; exact absurd rfl hne

theorem captureAsMacro_inv {H : Host σ} {f : Obj} {n : String} {r : Except Err Obj} {s s' : St σ}
    (h : captureAsMacro H f n s = some (r, s')) :
    (∃ e, r = .error e ∧ s'.globals = s.globals) ∨
    ∃ b u s1, H.pickle f = .ok b ∧ gensymQ n s = some (.ok u, s1) ∧
      lookupMacro H u (.bytes b) s1 = some (r, s') := by
  unfold captureAsMacro at h
  cases hc : H.callable f with
  | false => rw [hc] at h; cases h; exact .inl ⟨_, rfl, rfl⟩
  | true =>
    rw [hc] at h
    cases hp : H.pickle f with
    | error e => rw [hp] at h; cases h; exact .inl ⟨_, rfl, rfl⟩
    | ok b =>
      rw [hp] at h
      have h' : M.bind (gensymQ n) (fun unique => lookupMacro H unique (.bytes b)) s = some (r, s') := h
      unfold M.bind at h'
      cases hg : gensymQ n s with
      | none => rw [hg] at h'; cases h'
      | some q =>
        obtain ⟨r1, s1⟩ := q
        rw [hg] at h'
        cases r1 with
        | error e => cases h'; exact .inl ⟨e, rfl, gensymQ_globals hg⟩
        | ok u => exact .inr ⟨b, u, s1, rfl, rfl, h'⟩

theorem inv_step {H : Host σ} (hH : Imported H) {L : List MacroKey} {p p' : Process σ} (h : Inv H L p) {e : Event}
    (he : ∀ k ∈ loaded [e], k ∈ L) (hs : step H p e = some p') :
    Inv H L p' ∧ Later p.st p'.st ∧ ∀ k ∈ p.looked, k ∈ p'.looked := by
  cases e with
  | capture f n =>
    unfold step at hs
    dsimp only at hs
    cases hc : captureMacro H f n p.st with
    | none => rw [hc] at hs; cases hs
    | some q =>
      obtain ⟨r, s⟩ := q
      rw [hc] at hs
      have hl := Forward.captureMacro H f n _ _ _ hc
      cases r with
      | error e => cases hs; exact ⟨inv_state h hl (captureMacro_globals hc), hl, fun _ h => h⟩
      | ok code =>
        obtain ⟨b, u, -, -, h2, rfl⟩ := captureMacro_ok hc
        dsimp only at hs
        rw [keyOf_macroCode] at hs
        cases hs
        obtain ⟨h3, h4, h5⟩ := gensymQ_ok h2
        exact ⟨inv_new h hl h5 ⟨_, u, b⟩ h3 h4, hl, fun _ h => h⟩
  | captureAs f n =>
    unfold step at hs
    dsimp only at hs
    cases hc : captureAsMacro H f n p.st with
    | none => rw [hc] at hs; cases hs
    | some q =>
      obtain ⟨r, s⟩ := q
      rw [hc] at hs
      have hl := Forward.captureAsMacro H f n _ _ _ hc
      rcases captureAsMacro_inv hc with ⟨e, rfl, hg⟩ | ⟨b, u, s1, h1, h2, h3⟩
      · cases hs; exact ⟨inv_state h hl hg, hl, fun _ h => h⟩
      · obtain ⟨g1, g2, g3⟩ := gensymQ_ok h2
        have hl1 := Forward.gensymQ _ _ _ _ h2
        have hl2 := Forward.lookupMacro H _ _ _ _ _ h3
        cases r with
        | error e =>
          cases hs
          rcases lookupMacro_spec h3 with ⟨_, _, e2, _⟩ | ⟨e1, _⟩ | ⟨e1, _⟩
          · rw [e2] at hl ⊢; exact ⟨inv_state h hl g3, hl, fun _ h => h⟩
          · cases e1
          · cases e1
        | ok x =>
          have hx : x = nameNode u := by
            rcases lookupMacro_spec h3 with ⟨_, e1, _⟩ | ⟨e1, _⟩ | ⟨e1, _⟩
            · cases e1
            · exact Except.ok.inj e1
            · exact Except.ok.inj e1
          subst hx
          rw [h1] at hs
          cases hs
          have hi := inv_new h hl1 g3 ⟨n, u, b⟩ g1 g2
          have hi2 := inv_lookup hi (k := ⟨n, u, b⟩) (by simp) h3
          exact ⟨hi2, hl, fun _ h => List.mem_append_left _ h⟩
  | load k =>
    cases hs
    have hkL : k ∈ L := he k (by simp [loaded])
    have e : own L { p with captures := p.captures ++ [k] } = own L p := by
      have := own_append L p p.st [k] p.looked
      rw [this]; simp [hkL]
    exact ⟨⟨by rw [e]; exact h.known, by rw [e]; exact h.nodup, h.bound,
      fun k' hk' => ⟨List.mem_append_left _ (h.looked k' hk').1, (h.looked k' hk').2⟩⟩, .refl _, fun _ h => h⟩
  | lookup i =>
    unfold step at hs
    dsimp only at hs
    cases hi : p.captures[i]? with
    | none => rw [hi] at hs; cases hs; exact ⟨h, .refl _, fun _ h => h⟩
    | some k =>
      rw [hi] at hs
      dsimp only at hs
      rw [eval_macroCode hH] at hs
      have hk : k ∈ p.captures := List.mem_of_getElem? hi
      cases hc : lookupMacro H k.unique (.bytes k.frozen) p.st with
      | none => rw [hc] at hs; cases hs
      | some q =>
        obtain ⟨r, s⟩ := q
        rw [hc] at hs
        have hl := Forward.lookupMacro H _ _ _ _ _ hc
        cases r with
        | error e =>
          cases hs
          rcases lookupMacro_spec hc with ⟨_, _, e2, _⟩ | ⟨e1, _⟩ | ⟨e1, _⟩
          · rw [e2] at hl ⊢; exact ⟨inv_state h hl rfl, hl, fun _ h => h⟩
          · cases e1
          · cases e1
        | ok x => cases hs; exact ⟨inv_lookup h hk hc, hl, fun _ h => List.mem_append_left _ h⟩
  | gensym n =>
    unfold step at hs
    dsimp only at hs
    cases hc : gensymQ n p.st with
    | none => rw [hc] at hs; cases hs
    | some q =>
      obtain ⟨r, s⟩ := q
      rw [hc] at hs
      cases hs
      have hl := Forward.gensymQ n _ _ _ hc
      exact ⟨inv_state h hl (gensymQ_globals hc), hl, fun _ h => h⟩

theorem loaded_cons (e : Event) (es : List Event) : loaded (e :: es) = loaded [e] ++ loaded es := by
  cases e <;> rfl

theorem inv_history {H : Host σ} (hH : Imported H) {L : List MacroKey} (es : List Event) {p p' : Process σ}
    (h : Inv H L p) (he : ∀ k ∈ loaded es, k ∈ L) (hs : history H p es = some p') :
    Inv H L p' ∧ Later p.st p'.st ∧ ∀ k ∈ p.looked, k ∈ p'.looked := by
  induction es generalizing p with
  | nil => cases hs; exact ⟨h, .refl _, fun _ h => h⟩
  | cons e es ih =>
    rw [loaded_cons] at he
    rw [history] at hs
    cases hc : step H p e with
    | none => rw [hc] at hs; cases hs
    | some q =>
      rw [hc] at hs
      obtain ⟨h1, h2, h3⟩ := inv_step hH h (fun k hk => he k (by simp [hk])) hc
      obtain ⟨h4, h5, h6⟩ := ih h1 (fun k hk => he k (by simp [hk])) hs
      exact ⟨h4, h2.trans h5, fun k hk => h6 k (h3 k hk)⟩

/-- Two captures of this process with the same unique name are one. -/
theorem inv_same {H : Host σ} {L : List MacroKey} {p : Process σ} (h : Inv H L p) {k k' : MacroKey} (hk : k ∈ p.captures)
    (hk' : k' ∈ p.captures) (hL : k ∉ L) (hL' : k' ∉ L) (hu : k.unique = k'.unique) : k = k' := by
  have hn := h.nodup
  unfold own at hn
  have key : ∀ l : List MacroKey, (l.map (·.unique)).Nodup → k ∈ l → k' ∈ l → k = k' := by
    intro l
    induction l with
    | nil => intro _ h; cases h
    | cons a l ih =>
      intro hd h1 h2
      rw [List.map_cons, List.nodup_cons] at hd
      rcases List.mem_cons.1 h1 with e1 | g1 <;> rcases List.mem_cons.1 h2 with e2 | g2
      · rw [e1, e2]
      · exact absurd (List.mem_map.2 ⟨k', g2, by rw [← hu, e1]⟩) hd.1
      · exact absurd (List.mem_map.2 ⟨k, g1, by rw [hu, e2]⟩) hd.1
      · exact ih hd.2 g1 g2
  exact key _ hn (by simp [hk, hL]) (by simp [hk', hL'])

end Mcpyrate.Quotes
