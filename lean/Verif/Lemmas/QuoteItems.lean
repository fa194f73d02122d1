import Verif.Lemmas.Quotes
/-
The items of list unquotes.
-/
namespace Mcpyrate.Quotes
open Py

mutual
theorem flattened (xs : List Obj) : Flattened xs (flatten xs) := by
  match xs with
  | [] => rw [flatten]; exact .nil
  | x :: xs =>
    rw [flatten]
    exact flattenedItem x (flattened xs)
termination_by structural xs
theorem flattenedItem (x : Obj) {xs ys : List Obj} (h : Flattened xs ys) : Flattened (x :: xs) (flattenItem x ++ ys) := by
  match x with
  | .list zs => rw [flattenItem]; exact .list (flattened zs) h
  | .const c =>
    by_cases hc : c = .none
    · subst hc; exact .none h
    · have : flattenItem (.const c) = [.const c] := by
        cases c <;> first | exact absurd rfl hc | rfl
      rw [this]
      exact .item (fun e => hc (by cases e; rfl)) (fun _ e => nomatch e) h
  | .tuple _ | .set _ | .dict .. | .node .. | .ref _ | .ext _ => exact .item (fun e => nomatch e) (fun _ e => nomatch e) h
termination_by structural x
end

theorem Flattened.unique {xs ys zs : List Obj} (h : Flattened xs ys) : Flattened xs zs → ys = zs := by
  induction h generalizing zs with
  | nil => intro h; cases h; rfl
  | none h ih =>
    intro h'
    cases h' with
    | none h' => exact ih h'
    | item hn _ _ => exact absurd rfl hn
  | list h1 h2 ih1 ih2 =>
    intro h'
    cases h' with
    | list h1' h2' => rw [ih1 h1', ih2 h2']
    | item _ hl _ => exact absurd rfl (hl _)
  | item hn hl h ih =>
    intro h'
    cases h' with
    | none => exact absurd rfl hn
    | list => exact absurd rfl (hl _)
    | item _ _ h' => rw [ih h']

theorem flattened_iff {xs ys : List Obj} : Flattened xs ys ↔ flatten xs = ys :=
  ⟨fun h => (flattened xs).unique h, fun h => h ▸ flattened xs⟩

mutual
theorem typecheck_kind {p : K → Bool} (x : Obj) : typecheck p x = .ok () → OfKind p x := by
  match x with
  | .node (.marker n) l fs =>
    intro h
    obtain ⟨y, hy, ho | ⟨ys, rfl, ho⟩⟩ := typecheckBody_kind fs h
    · exact .marker hy ho
    · exact .suite hy ho
  | .node (.py k) l fs =>
    intro h
    unfold typecheck at h
    split at h
    · rename_i hk; exact .node hk
    · exact nomatch h
  | .const _ | .list _ | .tuple _ | .set _ | .dict .. | .ref _ | .ext _ => exact fun h => nomatch h
termination_by structural x
theorem typecheckBody_kind {p : K → Bool} (fs : List (F × Obj)) : typecheckBody p fs = .ok () →
    ∃ x, fs.lookup .body = some x ∧ (OfKind p x ∨ ∃ xs, x = .list xs ∧ ∀ x ∈ xs, OfKind p x) := by
  match fs with
  | [] => exact fun h => nomatch h
  | (f, x) :: r =>
    intro h
    unfold typecheckBody at h
    split at h
    · rename_i hf
      subst hf
      refine ⟨x, by simp [List.lookup], typecheckItem_kind x h⟩
    · rename_i hf
      obtain ⟨y, hy, ho⟩ := typecheckBody_kind r h
      refine ⟨y, ?_, ho⟩
      rw [List.lookup]
      have : (F.body == f) = false := by simpa using fun e => hf e.symm
      rw [this]; exact hy
termination_by structural fs
theorem typecheckItem_kind {p : K → Bool} (x : Obj)
    (h : (match x with | .list xs => typecheckL p xs | x => typecheck p x) = .ok ()) :
    OfKind p x ∨ ∃ xs, x = .list xs ∧ ∀ x ∈ xs, OfKind p x := by
  match x with
  | .list xs => exact .inr ⟨xs, rfl, typecheckL_kind xs h⟩
  | .node (.marker n) l fs =>
    obtain ⟨y, hy, ho | ⟨ys, rfl, ho⟩⟩ := typecheckBody_kind fs h
    · exact .inl (.marker hy ho)
    · exact .inl (.suite hy ho)
  | .node (.py k) l fs =>
    dsimp only at h
    unfold typecheck at h
    split at h
    · rename_i hk; exact .inl (.node hk)
    · exact nomatch h
  | .const _ | .tuple _ | .set _ | .dict .. | .ref _ | .ext _ => exact nomatch h
termination_by structural x
theorem typecheckL_kind {p : K → Bool} (xs : List Obj) : typecheckL p xs = .ok () → ∀ x ∈ xs, OfKind p x := by
  match xs with
  | [] => exact fun _ _ h => nomatch h
  | x :: xs =>
    intro h y hy
    unfold typecheckL at h
    cases hx : typecheck p x with
    | error e => rw [hx] at h; exact nomatch h
    | ok u =>
      rw [hx] at h
      rcases List.mem_cons.1 hy with e | hy
      · exact e ▸ typecheck_kind x hx
      · exact typecheckL_kind xs h y hy
termination_by structural xs
end

theorem typecheckBody_lookup {p : K → Bool} {x : Obj} : ∀ {fs : List (F × Obj)}, fs.lookup .body = some x →
    typecheckBody p fs = (match x with | .list xs => typecheckL p xs | x => typecheck p x)
  | (f, y) :: r, h => by
    rw [List.lookup] at h
    unfold typecheckBody
    split at h
    · rename_i hf
      cases h
      rw [if_pos (by simpa using hf : F.body = f).symm]
      cases x <;> rfl
    · rename_i hf
      rw [if_neg (by simpa using fun e : f = F.body => absurd e.symm (by simpa using hf))]
      exact typecheckBody_lookup h

theorem typecheckL_of {p : K → Bool} : ∀ {xs : List Obj}, (∀ x ∈ xs, typecheck p x = .ok ()) → typecheckL p xs = .ok ()
  | [], _ => rfl
  | x :: xs, h => by
    unfold typecheckL
    rw [h x (by simp)]
    exact typecheckL_of fun y hy => h y (by simp [hy])

theorem OfKind.typecheck {p : K → Bool} {x : Obj} (h : OfKind p x) : typecheck p x = .ok () := by
  induction h with
  | node hk => simp [Quotes.typecheck, hk]
  | @marker n l fs y hb h ih =>
    unfold Quotes.typecheck
    rw [typecheckBody_lookup hb]
    cases h <;> exact ih
  | suite hb h ih =>
    unfold Quotes.typecheck
    rw [typecheckBody_lookup hb]
    exact typecheckL_of ih

theorem typecheckL_iff {p : K → Bool} {xs : List Obj} : typecheckL p xs = .ok () ↔ ∀ x ∈ xs, OfKind p x :=
  ⟨typecheckL_kind xs, fun h => typecheckL_of fun x hx => (h x hx).typecheck⟩

theorem flattenAndTypecheck_iff {σ : Type} {H : Host σ} {p : K → Bool} {x : Obj} {ys : List Obj} :
    flattenAndTypecheck H p x = .ok ys ↔ ∃ xs, toList H x = .ok xs ∧ Flattened xs ys ∧ ∀ y ∈ ys, OfKind p y := by
  unfold flattenAndTypecheck
  cases h1 : toList H x with
  | error _ => exact ⟨fun e => (nomatch e), fun ⟨_, e, _⟩ => nomatch e⟩
  | ok xs =>
    simp only [bind, Except.bind]
    cases h2 : typecheckL p (flatten xs) with
    | error e =>
      refine ⟨fun e => (nomatch e), ?_⟩
      rintro ⟨_, he, hf, hk⟩
      cases he
      rw [flattened_iff] at hf
      subst hf
      rw [typecheckL_iff.2 hk] at h2
      exact nomatch h2
    | ok u =>
      constructor
      · intro e; cases e; exact ⟨xs, rfl, flattened xs, typecheckL_iff.1 h2⟩
      · rintro ⟨_, e, hf, -⟩
        cases e
        rw [flattened_iff] at hf
        subst hf; rfl

theorem typecheckL_wrong {p : K → Bool} : ∀ {xs : List Obj}, (∀ z ∈ xs, ∀ m l fs, z ≠ .node (.marker m) l fs) →
    (∃ z ∈ xs, ¬ OfKind p z) → typecheckL p xs = .error .typeError
  | [], _, h => by obtain ⟨z, hz, _⟩ := h; cases hz
  | x :: xs, hm, h => by
    rw [typecheckL]
    have hx : typecheck p x = .error .typeError ∨ (typecheck p x = .ok () ∧ OfKind p x) := by
      unfold typecheck
      split
      · exact (hm _ (List.mem_cons_self ..) _ _ _ rfl).elim
      · split
        · rename_i hp; exact .inr ⟨rfl, .node hp⟩
        · exact .inl rfl
      · exact .inl rfl
    rcases hx with hx | ⟨hx, ho⟩
    · rw [hx]
    · rw [hx]
      refine typecheckL_wrong (fun z hz => hm z (List.mem_cons_of_mem _ hz)) ?_
      obtain ⟨z, hz, hn⟩ := h
      rcases List.mem_cons.mp hz with rfl | hz
      · exact absurd ho hn
      · exact ⟨z, hz, hn⟩

theorem flattenAndTypecheck_wrong {σ : Type} {H : Host σ} {p : K → Bool} {x : Obj} {items flat : List Obj}
    (hi : toList H x = .ok items) (hf : Flattened items flat) (hm : ∀ z ∈ flat, ∀ m l fs, z ≠ .node (.marker m) l fs)
    (hw : ∃ z ∈ flat, ¬ OfKind p z) : flattenAndTypecheck H p x = .error .typeError := by
  unfold flattenAndTypecheck
  rw [hi]
  rw [flattened_iff] at hf
  subst hf
  simp only [bind, Except.bind]
  rw [typecheckL_wrong hm hw]

end Mcpyrate.Quotes
