import Verif.Spec.ImportCode
import Verif.Props.Importer
/-
Lemmas on imports.
-/
namespace Mcpyrate.ImportCode
open Py Paths Importer

variable {T Code : Type}

theorem xstats_tracked {L : Loader T Code} {path : Str} (h : Tracked L path) (fs : Files T) (disk : Str → CacheFile) :
    pathXstats L.I fs L.limit L.isStdlib L.standard path disk = lookup L.I fs L.limit path disk :=
  (C45_hook L.I fs L.limit L.isStdlib L.standard path disk).1 h.1 h.2

theorem reach_trans {I : Interp T} {fs : Files T} {p q r : Str} (h : Reach I fs p q) (h2 : Reach I fs q r) : Reach I fs p r := by
  induction h with
  | refl => exact h2
  | step hd _ ih => exact .step hd (ih h2)

theorem reach_snoc {I : Interp T} {fs : Files T} {p q r : Str} (h : Reach I fs p q) (hd : Depends I fs q r) : Reach I fs p r :=
  reach_trans h (.step hd .refl)

/-- What is reached before an edit is reached after it, unless the edited file is. -/
theorem edited_step {L : Loader T Code} {fs fs' : Files T} {q : Str} (he : Edited L fs fs' q) {p r : Str} (hp : p ≠ q)
    (hn : ¬ Depends L.I fs' p q) (hd : Depends L.I fs p r) : Depends L.I fs' p r := by
  obtain ⟨f, body, t, a, h1, h2, h3, h4, h5⟩ := hd
  have h1' : fs' p = some f := by rw [he.1 p hp]; exact h1
  rcases he.2.2 a with h | h
  · exact ⟨f, body, t, a, h1', h2, h3, h4, by rw [h]; exact h5⟩
  · exact absurd ⟨f, body, t, a, h1', h2, h3, h4, h⟩ hn

theorem edited_reach {L : Loader T Code} {fs fs' : Files T} {q : Str} (he : Edited L fs fs' q) {p r : Str}
    (h : Reach L.I fs p r) (hn : ¬ Reach L.I fs' p q) : Reach L.I fs' p r := by
  induction h with
  | refl => exact .refl
  | step hd _ ih =>
    have hd' := edited_step he (fun h => hn (h ▸ .refl)) (fun h => hn (.step h .refl)) hd
    exact .step hd' (ih fun h => hn (.step hd' h))

theorem edited_same {L : Loader T Code} {fs fs' : Files T} {q : Str} (he : Edited L fs fs' q) {p : Str}
    (hn : ¬ Reach L.I fs' p q) : Same L.I fs fs' p := by
  intro r hr
  have hr' := edited_reach he hr hn
  have hrq : r ≠ q := fun h => hn (h ▸ hr')
  refine ⟨by rw [he.1 r hrq], fun a ha => ?_⟩
  obtain ⟨f, body, t, h1, h2, h3, h4⟩ := ha
  rcases he.2.2 a with h | h
  · exact h
  · exact absurd (reach_snoc hr' ⟨f, body, t, a, by rw [he.1 r hrq]; exact h1, h2, h3, h4, h⟩) hn

/-- The invariant: bytecode is up to date, or older than something that its module depends on. -/
structure Inv (L : Loader T Code) (fs : Files T) (pyc : Str → Pyc Code) : Prop where
  current : ∀ p st code, Tracked L p → pyc p = .data st code →
    Expands L fs p (.ok code) ∨ ∃ q f, Reach L.I fs p q ∧ fs q = some f ∧ st < clock L f
  past : ∀ p st code, Tracked L p → pyc p = .data st code → ∃ q f, fs q = some f ∧ st ≤ clock L f

theorem Inv.edit {L : Loader T Code} (hL : Determined L) {fs fs' : Files T} {pyc : Str → Pyc Code} (h : Inv L fs pyc) {q : Str}
    (he : Edited L fs fs' q) : Inv L fs' pyc := by
  obtain ⟨f, hf, hlate⟩ := he.2.1
  refine ⟨fun p st code ht hp => ?_, fun p st code ht hp => ?_⟩
  · by_cases hr : Reach L.I fs' p q
    · obtain ⟨r, g, hg, hle⟩ := h.past p st code ht hp
      have := hlate r g hg
      exact .inr ⟨q, f, hr, hf, by omega⟩
    · rcases h.current p st code ht hp with hc | ⟨r, g, hrr, hg, hlt⟩
      · exact .inl (hL fs fs' p _ (edited_same he hr) hc)
      · have hr' := edited_reach he hrr hr
        exact .inr ⟨r, g, hr', by rw [he.1 r fun h => hr (h ▸ hr')]; exact hg, hlt⟩
  · obtain ⟨r, g, hg, hle⟩ := h.past p st code ht hp
    have := hlate r g hg
    exact ⟨q, f, hf, by omega⟩

theorem clock_stamp {L : Loader T Code} {fs : Files T} (hr : Regular L fs) {p : Str} {m : Int} (h : Newest L.I fs p m) :
    ∃ q f, Reach L.I fs p q ∧ fs q = some f ∧ stamp L m = clock L f := by
  obtain ⟨q, f, h1, h2, h3⟩ := h.1
  have := hr.2 q f h2
  refine ⟨q, f, h1, h2, ?_⟩
  unfold stamp
  rw [← h3]
  exact Int.emod_eq_of_lt this.1 (by have := this.2; unfold clock at this; omega)

theorem fromSource_ok {L : Loader T Code} {fs : Files T} {path : Str} {c : Option Int} {pyc : Str → Pyc Code} {code : Code}
    (h : (fromSource L fs path c pyc).1 = .ok code) : Expands L fs path (.ok code) := by
  unfold fromSource at h
  cases hf : fs path with
  | none => rw [hf] at h; cases h
  | some file =>
    rw [hf] at h
    dsimp only at h
    cases hs : sourceToXcode L fs file.text path with
    | error e => rw [hs] at h; cases h
    | ok code' =>
      rw [hs] at h
      refine ⟨file, hf, hs.trans ?_⟩
      cases c <;> (cases h; rfl)

theorem fromSource_pyc {L : Loader T Code} {fs : Files T} {path : Str} {c : Option Int} {pyc : Str → Pyc Code} :
    (fromSource L fs path c pyc).2 = pyc ∨ ∃ st code, c = some st ∧ (fromSource L fs path c pyc).1 = .ok code ∧
      (fromSource L fs path c pyc).2 = fun p => if p = path then .data st code else pyc p := by
  unfold fromSource
  cases hf : fs path with
  | none => exact .inl rfl
  | some file =>
    dsimp only
    cases hs : sourceToXcode L fs file.text path with
    | error e => exact .inl rfl
    | ok code =>
      cases c with
      | none => exact .inl rfl
      | some st => exact .inr ⟨st, code, rfl, rfl, rfl⟩

/-- What an import does, for a module that the hooks look after. -/
theorem getCode_cases {L : Loader T Code} {fs : Files T} (writes : Bool) {path : Str} (ht : Tracked L path) (disk : Str → CacheFile)
    (pyc : Str → Pyc Code) :
    (getCode L fs writes path disk pyc).2.1 = (lookup L.I fs L.limit path disk).2 ∧
    ((∃ e, (lookup L.I fs L.limit path disk).1 = .error e ∧ e ≠ .osError ∧ (getCode L fs writes path disk pyc).1 = .error e ∧
        (getCode L fs writes path disk pyc).2.2 = pyc) ∨
     (∃ m st code, (lookup L.I fs L.limit path disk).1 = .ok m ∧ pyc path = .data st code ∧ st = stamp L m ∧
        (getCode L fs writes path disk pyc).1 = .ok code ∧ (getCode L fs writes path disk pyc).2.2 = pyc) ∨
     ∃ c, (∀ st, c = some st → ∃ m, (lookup L.I fs L.limit path disk).1 = .ok m ∧ st = stamp L m) ∧
        (∀ m, (lookup L.I fs L.limit path disk).1 = .ok m → writes = true → c = some (stamp L m)) ∧
        (getCode L fs writes path disk pyc).1 = (fromSource L fs path c pyc).1 ∧
        (getCode L fs writes path disk pyc).2.2 = (fromSource L fs path c pyc).2) := by
  unfold getCode
  rw [xstats_tracked ht]
  cases hl : lookup L.I fs L.limit path disk with
  | mk r d =>
    cases r with
    | error e =>
      by_cases he : e = .osError
      · subst he
        exact ⟨rfl, .inr (.inr ⟨none, (fun st h => by cases h), (fun m h => by cases h), rfl, rfl⟩)⟩
      · cases e <;> first
          | exact absurd rfl he
          | exact ⟨rfl, .inl ⟨_, rfl, he, rfl, rfl⟩⟩
    | ok m =>
      have hc : (∀ st, (if writes = true then some (stamp L m) else none) = some st →
          ∃ m', (Except.ok m : Except Err Int) = .ok m' ∧ st = stamp L m') ∧
          ∀ m', (Except.ok m : Except Err Int) = .ok m' → writes = true →
            (if writes = true then some (stamp L m) else none) = some (stamp L m') := by
        refine ⟨fun st h => ?_, fun m' h hw => ?_⟩
        · split at h
          · cases h; exact ⟨m, rfl, rfl⟩
          · cases h
        · cases h; rw [if_pos hw]
      dsimp only
      cases hp : pyc path with
      | data st code =>
        dsimp only
        by_cases hst : st = stamp L m
        · rw [if_pos hst]
          exact ⟨rfl, .inr (.inl ⟨m, st, code, rfl, rfl, hst, rfl, rfl⟩)⟩
        · rw [if_neg hst]
          exact ⟨rfl, .inr (.inr ⟨_, hc.1, hc.2, rfl, rfl⟩)⟩
      | absent => exact ⟨rfl, .inr (.inr ⟨_, hc.1, hc.2, rfl, rfl⟩)⟩
      | garbage => exact ⟨rfl, .inr (.inr ⟨_, hc.1, hc.2, rfl, rfl⟩)⟩

/-- An import changes the bytecode of no other module. -/
theorem getCode_other {L : Loader T Code} {fs : Files T} (writes : Bool) {path p : Str} (hp : p ≠ path) (disk : Str → CacheFile)
    (pyc : Str → Pyc Code) : (getCode L fs writes path disk pyc).2.2 p = pyc p := by
  have key : ∀ c, (fromSource L fs path c pyc).2 p = pyc p := fun c => by
    rcases fromSource_pyc (L := L) (fs := fs) (path := path) (c := c) (pyc := pyc) with h | ⟨st, code, -, -, h⟩
    · rw [h]
    · rw [h]; exact if_neg hp
  unfold getCode
  split
  · exact key _
  · rfl
  · dsimp only
    split
    · split
      · rfl
      · exact key _
    · exact key _

/-- The macro-import caches have the history that they have in C46. -/
theorem getCode_disk {L : Loader T Code} {V : Str → Int → T} {fs : Files T} {disk : Str → CacheFile} (writes : Bool) (path : Str)
    (pyc : Str → Pyc Code) (h : History L.I.parse L.I.cacheFile V fs disk) :
    History L.I.parse L.I.cacheFile V fs (getCode L fs writes path disk pyc).2.1 := by
  have hx : (getCode L fs writes path disk pyc).2.1 = (pathXstats L.I fs L.limit L.isStdlib L.standard path disk).2 := by
    unfold getCode
    split
    · rename_i h; rw [h]
    · rename_i h; rw [h]
    · rename_i h; rw [h]; dsimp only
      split
      · split <;> rfl
      · rfl
  rw [hx]
  unfold pathXstats
  split
  · exact h
  · exact .lookup L.I L.limit path h rfl rfl

theorem imports_inv {L : Loader T Code} {V : Str → Int → T} (hL : Determined L)
    (hcf : ∀ p q, L.I.cacheFile p = L.I.cacheFile q → V p = V q) {fs : Files T} {disk : Str → CacheFile} {pyc : Str → Pyc Code}
    (h : Imports L V fs disk pyc) :
    Regular L fs ∧ History L.I.parse L.I.cacheFile V fs disk ∧ Inv L fs pyc := by
  induction h with
  | start h1 h2 h3 h4 =>
    exact ⟨h2, .start h1 h3, ⟨(fun p st code _ h => by rw [h4] at h; cases h), (fun p st code _ h => by rw [h4] at h; cases h)⟩⟩
  | edit q _ h1 h2 h3 ih => exact ⟨h2, .edit ih.2.1 h1, ih.2.2.edit hL h3⟩
  | @damage fs disk disk' pyc pyc' _ h1 h2 ih =>
    have key : ∀ p st code, pyc' p = .data st code → pyc p = .data st code := fun p st code hp => by
      rcases h2 p with h | h | h
      · rw [← h]; exact hp
      · rw [h] at hp; cases hp
      · rw [h] at hp; cases hp
    exact ⟨ih.1, .damage ih.2.1 h1, ⟨fun p st code ht hp => ih.2.2.current p st code ht (key p st code hp),
      fun p st code ht hp => ih.2.2.past p st code ht (key p st code hp)⟩⟩
  | @load fs disk pyc writes path _ ih =>
    obtain ⟨hr, hh, hi⟩ := ih
    refine ⟨hr, getCode_disk writes path pyc hh, ?_⟩
    suffices key : ∀ p st code, Tracked L p → (getCode L fs writes path disk pyc).2.2 p = .data st code → pyc p = .data st code ∨
        (Expands L fs p (.ok code) ∧ ∃ q f, fs q = some f ∧ st ≤ clock L f) by
      refine ⟨fun p st code ht hp => ?_, fun p st code ht hp => ?_⟩
      · rcases key p st code ht hp with h | h
        · exact hi.current p st code ht h
        · exact .inl h.1
      · rcases key p st code ht hp with h | h
        · exact hi.past p st code ht h
        · exact h.2
    intro p st code ht hp
    by_cases hpp : p = path
    · subst hpp
      rcases (getCode_cases (fs := fs) writes ht disk pyc).2 with ⟨e, -, -, -, h⟩ | ⟨m, st', code', -, -, -, -, h⟩ | ⟨c, h1, -, h2, h3⟩
      · rw [h] at hp; exact .inl hp
      · rw [h] at hp; exact .inl hp
      · rw [h3] at hp
        rcases fromSource_pyc (L := L) (fs := fs) (path := p) (c := c) (pyc := pyc) with h | ⟨st', code', hc, hok, h⟩
        · rw [h] at hp; exact .inl hp
        · rw [h] at hp
          dsimp only at hp
          rw [if_pos rfl] at hp
          cases hp
          obtain ⟨m, hm, rfl⟩ := h1 _ hc
          obtain ⟨q, f, -, hf, hst⟩ := clock_stamp hr (C45_newest_partial L.I V fs disk hcf hh hr.1 L.limit p m hm)
          exact .inr ⟨fromSource_ok hok, q, f, hf, by omega⟩
    · rw [getCode_other writes hpp] at hp; exact .inl hp

end Mcpyrate.ImportCode
