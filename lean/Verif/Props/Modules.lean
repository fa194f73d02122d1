import Verif.Lemmas.Modules
/-
C43 create_module registers modules like Python does.
C44 temporary_module cleans up.  The full statement fails (see the `…_violated` theorems): without a
name the module stays; an entry that was there before is deleted, even if no module is created.
-/
namespace Mcpyrate
open Py Modules

/-- C43: with a valid (or no) name and the parent package in place, the module is registered. -/
theorem C43_created (P : Host) (dottedName filename : Arg) (updateParent : Bool) (uuid name file : Str)
    (s : Sys) (hs : s.WF) (hn : Named P dottedName uuid name) (hf : Filed dottedName filename uuid file)
    (hp : HasParent P name s)
    (hset : updateParent = true → ∀ p l x, IsChild name p l → s.modules.get p = some x →
      ∃ i, x = .obj i ∧ P.settable i = true) :
    ∃ m s', createModule P dottedName filename updateParent uuid s = (.ok m, s') ∧
      Created name file updateParent s m s' := by
  obtain ⟨m, s', h⟩ := register_succeeds (file := file) hp hset
  refine ⟨m, s', ?_, (register_ok hs h).1⟩
  rw [← h]
  clear h
  rw [create_eq hn hf]

/-- C43: an exception leaves everything as it was. -/
theorem C43_unchanged (P : Host) (dottedName filename : Arg) (updateParent : Bool) (uuid : Str) (e : Err)
    (s s' : Sys) (h : createModule P dottedName filename updateParent uuid s = (.error e, s')) : s' = s := by
  unfold createModule at h
  split at h
  · cases h; rfl
  · cases h; rfl
  · exact register_error h

/-- C43: without the parent package, ModuleNotFoundError. -/
theorem C43_no_parent (P : Host) (dottedName filename : Arg) (updateParent : Bool) (uuid name file : Str)
    (s : Sys) (hn : Named P dottedName uuid name) (hf : Filed dottedName filename uuid file)
    (hp : ¬ HasParent P name s) :
    createModule P dottedName filename updateParent uuid s = (.error .moduleNotFoundError, s) := by
  have h : ∀ f, register P name f updateParent s = (.error .moduleNotFoundError, s) := by
    intro f
    unfold register
    dsimp only
    cases hr : rsplitDot name with
    | none =>
      have hnd := rsplit_none.1 hr
      exact absurd (fun p l (hc : IsChild name p l) => absurd (by rw [hc.1]; simp) hnd) hp
    | some q =>
      obtain ⟨p, l⟩ := q
      have hc := rsplit_some.1 hr
      dsimp only
      cases hx : Dict.get s.modules p with
      | none => rfl
      | some x =>
        dsimp only
        split
        · rfl
        · rename_i hb
          refine absurd (fun p' l' hc' => ?_) hp
          obtain ⟨rfl, rfl⟩ := hc.unique hc'
          exact ⟨x, hx, by simpa using hb⟩
  rw [create_eq hn hf, h]

/-- C43: a name with a component that is not an identifier, or a name or file name of another type, is a
TypeError. -/
theorem C43_bad_args (P : Host) (dottedName filename : Arg) (updateParent : Bool) (uuid : Str) (s : Sys)
    (h : (∃ n, dottedName = .str n ∧ n ≠ [] ∧ ¬ IsDotted P n) ∨ dottedName = .other true ∨
      filename = .other true) :
    createModule P dottedName filename updateParent uuid s = (.error .typeError, s) := by
  have key : checkName P dottedName = .error .typeError ∨
      (∃ n, checkName P dottedName = .ok n) ∧ checkFile filename = .error .typeError := by
    rcases h with ⟨n, rfl, hne, hd⟩ | rfl | rfl
    · obtain ⟨c, cs, rfl⟩ := List.exists_cons_of_ne_nil hne
      rw [isDotted_iff] at hd
      left
      simp [checkName, hd]
    · left; rfl
    · cases hc : checkName P dottedName with
      | ok n => exact .inr ⟨⟨n, rfl⟩, rfl⟩
      | error e =>
        left
        unfold checkName at hc
        split at hc
        · cases hc
        · cases hc
        · split at hc
          · cases hc
          · exact hc.symm
        · exact hc.symm
        · cases hc
  rcases key with h | ⟨⟨n, h1⟩, h2⟩
  · simp [createModule, h]
  · simp [createModule, h1, h2]

/-- C44, for a name that is not in `sys.modules`: whatever the body does (short of removing the module
or its parent itself), afterwards the module is gone, from `sys.modules` and from its parent, and
everything else is as the body left it; also when the body raises.  The outcome is that of the body. -/
theorem C44_removed_partial {ε α : Type} (P : Host) (name : Str) (filename : Arg) (updateParent : Bool)
    (uuid : Str) (body : Nat → Sys → Except ε α × Sys) (s s1 : Sys) (m : Nat) (hs : s.WF) (hne : name ≠ [])
    (hc : createModule P (.str name) filename updateParent uuid s = (.ok m, s1))
    (hk : Keeps name s1 (body m s1).2) :
    Removed name updateParent (body m s1).2 (temporaryModule P (.str name) filename updateParent uuid body s).2 ∧
    (temporaryModule P (.str name) filename updateParent uuid body s).1 =
      (match (body m s1).1 with
        | .ok a => .ok a
        | .error e => .error (.inr e)) := by
  have hr := create_ok hs hne hc
  have ht : temporaryModule P (.str name) filename updateParent uuid body s =
      ((match (body m s1).1 with
        | .ok a => .ok a
        | .error e => .error (.inr e)), cleanup P (.str name) updateParent (body m s1).2) := by
    unfold temporaryModule
    rw [hc]
    dsimp only
    cases hb : body m s1 with
    | mk r s2 => cases r <;> rfl
  rw [ht]
  exact ⟨cleanup_removed hr.1 hr.2 hk, rfl⟩

/-- C44: if the module cannot be created, nothing is changed. -/
theorem C44_not_created_partial {ε α : Type} (P : Host) (name : Str) (filename : Arg) (updateParent : Bool)
    (uuid : Str) (body : Nat → Sys → Except ε α × Sys) (s s1 : Sys) (e : Err)
    (hnew : s.modules.get name = none)
    (hc : createModule P (.str name) filename updateParent uuid s = (.error e, s1)) :
    temporaryModule P (.str name) filename updateParent uuid body s = (.error (.inl e), s) := by
  have := C43_unchanged _ _ _ _ _ _ _ _ hc
  subst this
  unfold temporaryModule
  rw [hc]
  simp [cleanup, hnew]

/-- C44, for every body, whatever it does to `sys.modules` and to the packages: afterwards there is no module of
that name in `sys.modules`, and nothing but its entry and the attribute on its parent differs from what the body
left.  (That the attribute is gone needs the hypothesis of `C44_removed_partial`.) -/
theorem C44_anyBody_partial {ε α : Type} (P : Host) (name : Str) (filename : Arg) (updateParent : Bool)
    (uuid : Str) (body : Nat → Sys → Except ε α × Sys) (s s1 : Sys) (m : Nat)
    (hc : createModule P (.str name) filename updateParent uuid s = (.ok m, s1))
    (hw : (body m s1).2.modules.WF) (ha : ∀ i, ((body m s1).2.attrs i).WF) :
    (temporaryModule P (.str name) filename updateParent uuid body s).2.modules.get name = none ∧
    (∀ k, k ≠ name → (temporaryModule P (.str name) filename updateParent uuid body s).2.modules.get k =
      (body m s1).2.modules.get k) ∧
    (∀ i a, ¬ (updateParent = true ∧ ∃ p, IsChild name p a ∧ (body m s1).2.modules.get p = some (.obj i)) →
      ((temporaryModule P (.str name) filename updateParent uuid body s).2.attrs i).get a =
        ((body m s1).2.attrs i).get a) ∧
    (temporaryModule P (.str name) filename updateParent uuid body s).1 =
      (match (body m s1).1 with
        | .ok a => .ok a
        | .error e => .error (.inr e)) := by
  have ht : temporaryModule P (.str name) filename updateParent uuid body s =
      ((match (body m s1).1 with
        | .ok a => .ok a
        | .error e => .error (.inr e)), cleanup P (.str name) updateParent (body m s1).2) := by
    unfold temporaryModule
    rw [hc]
    dsimp only
    cases hb : body m s1 with
    | mk r s2 => cases r <;> rfl
  rw [ht]
  obtain ⟨h1, h2, h3⟩ := cleanup_any P name updateParent _ hw ha
  exact ⟨h1, h2, h3, rfl⟩

/-- C44, for a name that is new in `sys.modules` and on its parent package: if the body itself leaves
the modules alone, then afterwards they are what they were before. -/
theorem C44_restored_partial {ε α : Type} (P : Host) (name : Str) (filename : Arg) (updateParent : Bool)
    (uuid : Str) (body : Nat → Sys → Except ε α × Sys) (s : Sys) (hs : s.WF) (hne : name ≠ [])
    (hnew : s.modules.get name = none)
    (hattr : ∀ p l i, IsChild name p l → s.modules.get p = some (.obj i) → (s.attrs i).get l = none)
    (hbody : ∀ m s1, SameModules s1 (body m s1).2 ∧ (body m s1).2.modules.WF ∧
      ∀ i, ((body m s1).2.attrs i).WF) :
    SameModules s (temporaryModule P (.str name) filename updateParent uuid body s).2 := by
  cases hc : createModule P (.str name) filename updateParent uuid s with
  | mk r s1 =>
  cases r with
  | error e =>
    rw [C44_not_created_partial P name filename updateParent uuid body s s1 e hnew hc]
    exact ⟨fun _ => rfl, fun _ _ _ => rfl⟩
  | ok m =>
    have hr := create_ok hs hne hc
    obtain ⟨hb1, hb2, hb3⟩ := hbody m s1
    obtain ⟨f, hcr⟩ := hr.1
    have hlt : ∀ k i, s.modules.get k = some (.obj i) → i < s1.next := fun k i h => by
      have := hs.2 k i h
      rw [hr.2.2.2]; omega
    have hk : Keeps name s1 (body m s1).2 := by
      refine ⟨⟨hb2, hb3⟩, hb1.1 _, fun p l _ => hb1.1 _, fun p l i hch hp => hb1.2 i ?_ l⟩
      rw [hcr.modules, if_neg hch.ne] at hp
      exact hlt p i hp
    obtain ⟨hrem, _⟩ := C44_removed_partial P name filename updateParent uuid body s s1 m hs hne hc hk
    refine ⟨fun k => ?_, fun i hi a => ?_⟩
    · by_cases hkn : k = name
      · rw [hkn, hrem.entry, hnew]
      · rw [hrem.modules k hkn, hb1.1, hcr.modules, if_neg hkn]
    · have him : i ≠ m := by rw [hcr.fresh]; omega
      by_cases hch : updateParent = true ∧ ∃ p, IsChild name p a ∧ s.modules.get p = some (.obj i)
      · obtain ⟨hu, p, hch, hp⟩ := hch
        rw [hattr p a i hch hp]
        refine hrem.parent p a i hu hch ?_
        rw [hb1.1, hcr.modules, if_neg hch.ne, hp]
      · rw [hrem.others i a, hb1.2 i (by rw [hr.2.2.2]; omega) a, hcr.others i a him hch]
        rintro ⟨hu, p, hch', hp⟩
        rw [hb1.1, hcr.modules, if_neg hch'.ne] at hp
        exact hch ⟨hu, p, hch', hp⟩

/-- Examples: `sys.modules` with a package `p` (object 0), and a module `old` (object 1). -/
def host0 : Host := { isIdent := fun s => s != [], truthy := fun _ => true, settable := fun _ => true }
def sys0 : Sys :=
  { modules := [("p".toList, .obj 0), ("old".toList, .obj 1)]
    attrs := fun _ => [("x".toList, .none)]
    next := 2 }

theorem sys0_wf : sys0.WF := by
  refine ⟨by unfold Dict.WF; decide, fun k i h => ?_⟩
  have := Dict.get_mem _ _ _ h
  simp only [sys0, List.mem_cons, Prod.mk.injEq, Obj.obj.injEq, List.not_mem_nil, or_false] at this
  rcases this with ⟨_, rfl⟩ | ⟨_, rfl⟩ <;> decide

example : ∃ s', createModule host0 (.str "p.q".toList) .none true "u".toList sys0 = (.ok 2, s') ∧
    s'.modules = [("p".toList, .obj 0), ("old".toList, .obj 1), ("p.q".toList, .obj 2)] ∧
    s'.attrs 0 = [("x".toList, .none), ("q".toList, .obj 2)] := ⟨_, rfl, by decide +kernel, by decide +kernel⟩
example : (createModule host0 (.str "r.q".toList) .none true "u".toList sys0).1 = .error .moduleNotFoundError := by
  decide +kernel
example : (createModule host0 (.str "p..q".toList) .none true "u".toList sys0).1 = .error .typeError := by
  decide +kernel
example : Named host0 (.str "p.q".toList) [] "p.q".toList :=
  .inl ⟨rfl, by decide, ["p".toList, "q".toList], by decide, by decide, by decide⟩

/-- A body that raises; its hypotheses. -/
example : ∀ m s1, s1.modules.WF → (∀ i, (s1.attrs i).WF) → Keeps "p.q".toList s1
    ((fun (_ : Nat) (s : Sys) => ((.error 5, s) : Except Nat Unit × Sys)) m s1).2 :=
  fun _ _ h1 h2 => ⟨⟨h1, h2⟩, rfl, fun _ _ _ => rfl, fun _ _ _ _ _ => rfl⟩
example : ∃ s', temporaryModule host0 (.str "p.q".toList) .none true "u".toList
      (fun _ s => ((.error 5, s) : Except Nat Unit × Sys)) sys0 = (.error (.inr 5), s') ∧
    s'.modules = sys0.modules ∧ s'.attrs 0 = sys0.attrs 0 := ⟨_, rfl, by decide +kernel, by decide +kernel⟩

/-- A body that puts other things in the places of the parent and of the module. -/
def replacing : Nat → Sys → Except Nat Nat × Sys :=
  fun m s => (.ok 7, { s with modules := [("p".toList, .obj m), ("p.q".toList, .none)] })
example : (temporaryModule host0 (.str "p.q".toList) .none true "u".toList replacing sys0).1 = .ok 7 ∧
    (temporaryModule host0 (.str "p.q".toList) .none true "u".toList replacing sys0).2.modules =
      [("p".toList, .obj 2)] := ⟨rfl, by decide +kernel⟩

/-- A body that takes the module out of `sys.modules`. -/
def removing : Nat → Sys → Except Unit Unit × Sys :=
  fun _ s => (.ok (), { s with modules := s.modules.del "p.q".toList })

/-- C44 fails if the body itself takes the module out of `sys.modules`: the parent keeps its attribute, as the
clean-up stops at the entry that is missing. -/
theorem C44_bodyRemoves_violated :
    (temporaryModule host0 (.str "p.q".toList) .none true "u".toList removing sys0).2.modules = sys0.modules ∧
    ((temporaryModule host0 (.str "p.q".toList) .none true "u".toList removing sys0).2.attrs 0).get "q".toList =
      some (.obj 2) ∧
    (sys0.attrs 0).get "q".toList = none := by
  refine ⟨?_, ?_, ?_⟩ <;> decide +kernel

/-- C44 fails without a name: the temporary module stays in `sys.modules`. -/
theorem C44_unnamed_violated :
    (temporaryModule host0 .none .none true "u".toList (fun _ s => ((.ok (), s) : Except Unit Unit × Sys)) sys0).2.modules
      = sys0.modules ++ [("dynamically_created_module_u".toList, .obj 2)] := by decide +kernel

/-- C44 fails if there was a module of that name: it is deleted from `sys.modules`. -/
theorem C44_existing_violated :
    (temporaryModule host0 (.str "old".toList) .none true "u".toList
        (fun _ s => ((.ok (), s) : Except Unit Unit × Sys)) sys0).2.modules
      = [("p".toList, .obj 0)] := by decide +kernel

/-- Even if the temporary module is not created because of a bad file name. -/
theorem C44_existing_error_violated :
    (temporaryModule host0 (.str "old".toList) (.other true) true "u".toList
        (fun _ s => ((.ok (), s) : Except Unit Unit × Sys)) sys0).1 = .error (.inl .typeError) ∧
    (temporaryModule host0 (.str "old".toList) (.other true) true "u".toList
        (fun _ s => ((.ok (), s) : Except Unit Unit × Sys)) sys0).2.modules
      = [("p".toList, .obj 0)] := by constructor <;> decide +kernel

end Mcpyrate
