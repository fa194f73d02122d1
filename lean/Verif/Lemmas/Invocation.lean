import Verif.Spec.Invocation
/-
The model recognises macro invocations as specified.
-/
namespace Mcpyrate.Expander
open Py

variable {υ : Type}

theorem isK_inj {k k' : K} {t : Val} (h : t.isK k = true) (h' : t.isK k' = true) : k = k' := by
  cases t with
  | node c l fs => cases c with
    | py c => simp [Val.isK] at h h'; rw [h, h']
    | marker n => cases h
  | const c => cases h
  | list xs => cases h

theorem isK_isAST {k : K} {t : Val} (h : t.isK k = true) : t.isAST = true := by
  cases t <;> simp_all [Val.isK, Val.isAST]

theorem isK_eq {k : K} {t : Val} (h : t.isK k = true) : ∃ l fs, t = .node (.py k) l fs := by
  cases t with
  | node c l fs => cases c with
    | py c => simp [Val.isK] at h; exact ⟨l, fs, by rw [h]⟩
    | marker n => cases h
  | const c => cases h
  | list xs => cases h

theorem isK_isDone {k : K} {t : Val} (h : t.isK k = true) : isDone t = false := by
  obtain ⟨l, fs, rfl⟩ := isK_eq h; rfl

theorem attr_ok {t : Val} {f : F} {v : Val} : attr t f = .ok v ↔ t.get? f = some v := by
  unfold attr; cases t.get? f <;> simp

theorem get?_child {t : Val} {f : F} {v : Val} (h : t.get? f = some v) (hv : v.isAST = true) :
    v ∈ childNodes t := by
  cases t with
  | node c l fs =>
    simp only [Val.get?] at h
    have := List.lookup_eq_some_iff.mp h
    obtain ⟨a, b, hab, -⟩ := this
    simp only [childNodes, List.mem_flatMap]
    refine ⟨(f, v), by simp [hab], ?_⟩
    cases v <;> simp_all [Val.isAST]
  | const c => cases h
  | list xs => cases h

theorem get?_list_child {t : Val} {f : F} {xs : List Val} (h : t.get? f = some (.list xs)) {x : Val}
    (hx : x ∈ xs) (hv : x.isAST = true) : x ∈ childNodes t := by
  cases t with
  | node c l fs =>
    simp only [Val.get?] at h
    have := List.lookup_eq_some_iff.mp h
    obtain ⟨a, b, hab, -⟩ := this
    simp only [childNodes, List.mem_flatMap]
    exact ⟨(f, .list xs), by simp [hab], by simp [hx, hv]⟩
  | const c => cases h
  | list xs => cases h

theorem asName_some {v : Val} {k : String} : asName v = some k ↔ v = .str k := by
  unfold asName; split <;> simp_all

theorem asList_ok {v : Val} {xs : List Val} : asList v = .ok xs ↔ v = .list xs := by
  unfold asList; split <;> simp_all

theorem nonEmpty_false {v : Val} : nonEmpty v = false ↔ (v = .list [] ∨ v = .none) := by
  unfold nonEmpty; split <;> simp_all

theorem ok_bind {α β : Type} {x : Except Exc α} {f : α → Except Exc β} {b : β} :
    (x >>= f) = .ok b ↔ ∃ a, x = .ok a ∧ f a = .ok b := by
  cases x with
  | error e => constructor
               · intro h; cases h
               · rintro ⟨a, h, -⟩; cases h
  | ok a => constructor
            · intro h; exact ⟨a, rfl, h⟩
            · rintro ⟨a', h, h'⟩; cases h; exact h'

theorem ok_bind' {α β : Type} (a : α) (f : α → Except Exc β) : ((.ok a : Except Exc α) >>= f) = f a := rfl

theorem pure_ok {α : Type} {a b : α} : (pure a : Except Exc α) = .ok b ↔ a = b := by
  constructor
  · intro h; cases h; rfl
  · rintro rfl; rfl

theorem map_pair {o : Option String} {as : List Val} {k : String} {bs : List Val} :
    o.map (·, as) = some (k, bs) ↔ o = some k ∧ as = bs := by
  cases o <;> simp

/-- What `destructure` finds is a candidate. -/
theorem destructure_sound {b : Bool} {t : Val} {k : String} {as : List Val}
    (h : destructure b t = .ok (some (k, as))) : Candidate t k as := by
  unfold destructure at h
  split at h
  · rename_i hk
    simp only [ok_bind, pure_ok, attr_ok, map_pair, asName_some] at h
    obtain ⟨i, hi, rfl, rfl⟩ := h
    exact .plain hk hi
  · split at h
    · rename_i hk
      simp only [ok_bind, attr_ok] at h
      obtain ⟨v, hv, h⟩ := h
      split at h
      · rename_i hvk
        simp only [ok_bind, attr_ok] at h
        obtain ⟨a, ha, h⟩ := h
        split at h
        · rename_i hat
          simp only [ok_bind, attr_ok, pure_ok, map_pair, asName_some, asList_ok] at h
          obtain ⟨e, he, xs, rfl, i, hi, rfl, rfl⟩ := h
          exact .brackets hk hv hvk hi ha hat he
        · rename_i hat
          simp only [ok_bind, attr_ok, pure_ok, map_pair, asName_some] at h
          obtain ⟨xs, rfl, i, hi, rfl, rfl⟩ := h
          exact .bracket hk hv hvk hi ha (by simpa using hat)
      · simp [pure_ok] at h
    · split at h
      · rename_i hk
        simp only [ok_bind, attr_ok] at h
        obtain ⟨v, hv, h⟩ := h
        split at h
        · rename_i hvk
          simp only [ok_bind, attr_ok] at h
          obtain ⟨kws, hkws, h⟩ := h
          split at h
          · simp [pure_ok] at h
          · rename_i hne
            simp only [ok_bind, attr_ok, asList_ok] at h
            obtain ⟨e, he, xs, rfl, h⟩ := h
            split at h
            · cases h
            · split at h
              · cases h
              · simp only [ok_bind, attr_ok, pure_ok, map_pair, asName_some] at h
                obtain ⟨i, hi, rfl, rfl⟩ := h
                exact .parens hk hv hvk hi hkws (nonEmpty_false.mp (by simpa using hne)) he
        · simp [pure_ok] at h
      · simp [pure_ok] at h

theorem isK_false {k k' : K} {t : Val} (h : t.isK k = true) (hne : k ≠ k') : t.isK k' = false := by
  cases hk : t.isK k' with
  | false => rfl
  | true => exact absurd (isK_inj h hk) hne

theorem attr_eq {t : Val} {f : F} {v : Val} (h : t.get? f = some v) : attr t f = .ok v := attr_ok.mpr h

/-- A candidate is found. -/
theorem destructure_complete {t : Val} {k : String} {as : List Val} (h : Candidate t k as) :
    destructure false t = .ok (some (k, as)) := by
  unfold destructure
  cases h with
  | plain hk hi => rw [if_pos hk, attr_eq hi]; rfl
  | bracket hk hv hvk hi ha hat =>
    simp [isK_false hk (k' := .Name) (by decide), hk, attr_eq hv, hvk, attr_eq ha, attr_eq hi, hat,
      ok_bind', asName]; rfl
  | brackets hk hv hvk hi ha hat he =>
    simp [isK_false hk (k' := .Name) (by decide), hk, attr_eq hv, hvk, attr_eq ha, attr_eq hi, hat,
      ok_bind', asName, attr_eq he, asList]; rfl
  | parens hk hv hvk hi hkws hne he =>
    simp [isK_false hk (k' := .Name) (by decide), isK_false hk (k' := .Subscript) (by decide), hk,
      attr_eq hv, hvk, attr_eq hkws, attr_eq hi, ok_bind', asName, attr_eq he, asList,
      nonEmpty_false.mpr hne]; rfl

/-- With validation: a bad call is rejected, every other candidate is found. -/
theorem destructure_validate {t : Val} {k : String} {as : List Val} (h : Candidate t k as) :
    (BadCall t → destructure true t = .error (.py .syntaxError)) ∧
    (¬ BadCall t → destructure true t = .ok (some (k, as))) := by
  cases h with
  | plain hk hi =>
    refine ⟨fun hb => absurd (isK_inj hk hb.1) (by decide), fun _ => ?_⟩
    have := destructure_complete (.plain hk hi)
    unfold destructure at this ⊢
    rw [if_pos hk] at this ⊢; exact this
  | bracket hk hv hvk hi ha hat =>
    refine ⟨fun hb => absurd (isK_inj hk hb.1) (by decide), fun _ => ?_⟩
    have := destructure_complete (.bracket hk hv hvk hi ha hat)
    unfold destructure at this ⊢
    rw [if_neg (by simp [isK_false hk (k' := .Name) (by decide)]), if_pos hk] at this ⊢; exact this
  | brackets hk hv hvk hi ha hat he =>
    refine ⟨fun hb => absurd (isK_inj hk hb.1) (by decide), fun _ => ?_⟩
    have := destructure_complete (.brackets hk hv hvk hi ha hat he)
    unfold destructure at this ⊢
    rw [if_neg (by simp [isK_false hk (k' := .Name) (by decide)]), if_pos hk] at this ⊢; exact this
  | parens hk hv hvk hi hkws hne he =>
    have hd : destructure true t = if (true && as.isEmpty) = true then .error (.py .syntaxError)
        else if (true && as.any (·.isK .Starred)) = true then .error (.py .syntaxError)
        else .ok (some (k, as)) := by
      unfold destructure
      simp [isK_false hk (k' := .Name) (by decide), isK_false hk (k' := .Subscript) (by decide), hk,
        attr_eq hv, hvk, attr_eq hkws, attr_eq hi, ok_bind', asName, attr_eq he, asList,
        nonEmpty_false.mpr hne]; rfl
    rw [hd]
    constructor
    · intro hb
      rcases hb.2 with hb | ⟨as', a, hb, ha, hs⟩
      · rw [he] at hb; cases hb; rfl
      · rw [he] at hb; cases hb
        split
        · rfl
        · rw [if_pos (by simp only [Bool.true_and, List.any_eq_true]; exact ⟨a, ha, hs⟩)]
    · intro hb
      rw [if_neg, if_neg]
      · intro h
        simp only [Bool.true_and, List.any_eq_true] at h
        obtain ⟨a, ha, hs⟩ := h
        exact hb ⟨hk, .inr ⟨as, a, he, ha, hs⟩⟩
      · intro h
        simp only [Bool.true_and, List.isEmpty_iff] at h
        subst h
        exact hb ⟨hk, .inl he⟩

/-- Without validation there is no error, when the required fields are there. -/
theorem destructure_total {t : Val} (ht : fieldsOk t = true)
    (hc : ∀ u ∈ childNodes t, fieldsOk u = true) : ∃ d, destructure false t = .ok d := by
  unfold destructure
  split
  · rename_i hk
    obtain ⟨l, fs, rfl⟩ := isK_eq hk
    obtain ⟨i, hi⟩ := Option.isSome_iff_exists.mp ht
    rw [attr_eq hi]; exact ⟨_, rfl⟩
  · split
    · rename_i hk
      obtain ⟨l, fs, rfl⟩ := isK_eq hk
      simp only [fieldsOk, Bool.and_eq_true] at ht
      obtain ⟨v, hv⟩ := Option.isSome_iff_exists.mp ht.1
      obtain ⟨a, ha⟩ := Option.isSome_iff_exists.mp ht.2
      simp only [attr_eq hv, ok_bind']
      split
      · rename_i hvk
        have h1 := hc v (get?_child hv (isK_isAST hvk))
        obtain ⟨l', fs', rfl⟩ := isK_eq hvk
        obtain ⟨i, hi⟩ := Option.isSome_iff_exists.mp h1
        simp only [attr_eq ha, attr_eq hi, ok_bind']
        split
        · rename_i hat
          have h2 := hc a (get?_child ha (isK_isAST hat))
          obtain ⟨l', fs', rfl⟩ := isK_eq hat
          simp only [fieldsOk, hasList] at h2
          split at h2
          · rename_i xs hxs; rw [attr_eq hxs]; exact ⟨_, rfl⟩
          · cases h2
        · exact ⟨_, rfl⟩
      · exact ⟨_, rfl⟩
    · split
      · rename_i hk
        obtain ⟨l, fs, rfl⟩ := isK_eq hk
        simp only [fieldsOk, Bool.and_eq_true] at ht
        obtain ⟨v, hv⟩ := Option.isSome_iff_exists.mp ht.1.1
        obtain ⟨kws, hkws⟩ := Option.isSome_iff_exists.mp ht.2
        simp only [attr_eq hv, ok_bind']
        split
        · rename_i hvk
          have h1 := hc v (get?_child hv (isK_isAST hvk))
          obtain ⟨l', fs', rfl⟩ := isK_eq hvk
          obtain ⟨i, hi⟩ := Option.isSome_iff_exists.mp h1
          simp only [attr_eq hkws, attr_eq hi, ok_bind']
          split
          · exact ⟨_, rfl⟩
          · have h2 := ht.1.2
            simp only [hasList] at h2
            split at h2
            · rename_i xs hxs; rw [attr_eq hxs]; exact ⟨_, rfl⟩
            · cases h2
        · exact ⟨_, rfl⟩
      · exact ⟨_, rfl⟩

theorem ismacrocall_iff {E : Env υ} {w : World υ} {d : Option (String × List Val)} {synt : Syn}
    (hs : synt ≠ .name) :
    ismacrocall E w d synt = true ↔ ∃ k as id, d = some (k, as) ∧ Accepts E w k as id := by
  unfold ismacrocall Accepts
  cases d with
  | none => simp
  | some p =>
    obtain ⟨k, as⟩ := p
    simp only [Option.some.injEq, Prod.mk.injEq]
    by_cases hk : k = ""
    · simp only [if_pos hk]
      constructor
      · intro h; cases h
      · rintro ⟨k', as', id, ⟨rfl, rfl⟩, h, -⟩; exact absurd hk h
    · simp only [if_neg hk]
      cases hb : isbound w k with
      | none =>
        constructor
        · intro h; cases h
        · rintro ⟨k', as', id, ⟨rfl, rfl⟩, -, h, -⟩; rw [hb] at h; cases h
      | some id =>
        simp only [if_neg hs, Bool.or_eq_true, List.isEmpty_iff]
        constructor
        · intro h; exact ⟨k, as, id, ⟨rfl, rfl⟩, hk, hb, h⟩
        · rintro ⟨k', as', id', ⟨rfl, rfl⟩, -, h, h'⟩; rw [hb] at h; cases h; exact h'

theorem ismacrocall_name {E : Env υ} {w : World υ} {k : String} {as : List Val} :
    ismacrocall E w (some (k, as)) .name = true ↔
      k ≠ "" ∧ ∃ id, isbound w k = some id ∧ (E.macros id).isName = true := by
  unfold ismacrocall
  simp only
  split
  · simp_all
  · cases hb : isbound w k <;> simp_all

/-- A candidate expression in which the model sees a macro, names one; and conversely. -/
theorem names_iff {E : Env υ} {w : World υ} {c : Val} {synt : Syn} (hs : synt ≠ .name)
    {d : Option (String × List Val)} (hd : destructure false c = .ok d) :
    ismacrocall E w d synt = true ↔ Names E w c := by
  rw [ismacrocall_iff hs]
  constructor
  · rintro ⟨k, as, id, rfl, h⟩; exact ⟨k, as, id, destructure_sound hd, h⟩
  · rintro ⟨k, as, id, hc, h⟩
    rw [destructure_complete hc] at hd; cases hd
    exact ⟨k, as, id, rfl, h⟩

/-- A candidate determines name and arguments. -/
theorem Candidate.unique {t : Val} {k k' : String} {as as' : List Val} (h : Candidate t k as)
    (h' : Candidate t k' as') : k = k' ∧ as = as' := by
  have h1 := destructure_complete h
  rw [destructure_complete h'] at h1
  cases h1; exact ⟨rfl, rfl⟩

end Mcpyrate.Expander
