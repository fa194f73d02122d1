import Verif.Spec.Bindings
import Verif.Lemmas.DumpColor
namespace Mcpyrate.Bindings
open Py

/-! The order of strings. -/

theorem strLt_iff : ∀ a b : Str, strLt a b = true ↔ Before a b
  | [], [] => by
    constructor
    · intro h; cases h
    · rintro (⟨c, s, h⟩ | ⟨p, c, d, s, t, h, _⟩)
      · cases h
      · cases p <;> cases h
  | [], b :: t => by
    constructor
    · intro _; exact .inl ⟨b, t, rfl⟩
    · intro _; rfl
  | a :: s, [] => by
    constructor
    · intro h; cases h
    · rintro (⟨c, s, h⟩ | ⟨p, c, d, s, t, _, h, _⟩)
      · cases h
      · cases p <;> cases h
  | a :: s, b :: t => by
    rw [strLt]
    by_cases h1 : a.toNat < b.toNat
    · rw [if_pos h1]
      exact ⟨fun _ => .inr ⟨[], a, b, s, t, rfl, rfl, h1⟩, fun _ => rfl⟩
    · rw [if_neg h1]
      by_cases h2 : b.toNat < a.toNat
      · rw [if_pos h2]
        constructor
        · intro h; cases h
        · rintro (⟨c, u, h⟩ | ⟨p, c, d, u, v, h3, h4, h5⟩)
          · cases h; exact absurd h2 (Nat.lt_irrefl _)
          · cases p with
            | nil => cases h3; cases h4; exact absurd h5 h1
            | cons x p => cases h3; cases h4; exact absurd h2 (Nat.lt_irrefl _)
      · rw [if_neg h2]
        have hab : a = b := Char.toNat_inj.1 (by omega)
        subst hab
        rw [strLt_iff s t]
        constructor
        · rintro (⟨c, u, h⟩ | ⟨p, c, d, u, v, h3, h4, h5⟩)
          · exact .inl ⟨c, u, by rw [h]; rfl⟩
          · exact .inr ⟨a :: p, c, d, u, v, by rw [h3]; rfl, by rw [h4]; rfl, h5⟩
        · rintro (⟨c, u, h⟩ | ⟨p, c, d, u, v, h3, h4, h5⟩)
          · cases h; exact .inl ⟨c, u, rfl⟩
          · cases p with
            | nil => cases h3; cases h4; exact absurd h5 (Nat.lt_irrefl _)
            | cons x p => cases h3; cases h4; exact .inr ⟨p, c, d, u, v, rfl, rfl, h5⟩

theorem strLt_total : ∀ a b : Str, strLt a b = false → a = b ∨ strLt b a = true
  | [], [], _ => .inl rfl
  | [], _ :: _, h => by cases h
  | _ :: _, [], _ => .inr rfl
  | a :: s, b :: t, h => by
    rw [strLt] at h ⊢
    split at h
    · cases h
    · split at h
      · rename_i h1 h2; rw [if_pos h2]; exact .inr rfl
      · rename_i h1 h2
        have hab : a = b := Char.toNat_inj.1 (by omega)
        subst hab
        rw [if_neg h1, if_neg h1]
        rcases strLt_total s t h with rfl | h
        · exact .inl rfl
        · exact .inr h

theorem strLt_trans : ∀ a b c : Str, strLt a b = true → strLt b c = true → strLt a c = true
  | [], [], _, h, _ => by cases h
  | [], _ :: _, [], _, h => by cases h
  | [], _ :: _, _ :: _, _, _ => rfl
  | _ :: _, [], _, h, _ => by cases h
  | _ :: _, _ :: _, [], _, h => by cases h
  | a :: s, b :: t, c :: u, h1, h2 => by
    rw [strLt] at h1 h2 ⊢
    by_cases hab : a.toNat < b.toNat
    · by_cases hbc : b.toNat < c.toNat
      · rw [if_pos (by omega)]
      · rw [if_neg hbc] at h2
        split at h2
        · cases h2
        · rw [if_pos (by omega)]
    · rw [if_neg hab] at h1
      split at h1
      · cases h1
      · by_cases hbc : b.toNat < c.toNat
        · rw [if_pos (by omega)]
        · rw [if_neg hbc] at h2
          split at h2
          · cases h2
          · rw [if_neg (by omega), if_neg (by omega)]
            exact strLt_trans s t u h1 h2

/-! Sorting. -/

theorem mem_insert {x y : Str × Fn} : ∀ {l : List (Str × Fn)}, y ∈ insert x l ↔ y = x ∨ y ∈ l
  | [] => by simp [insert]
  | z :: l => by
    rw [insert]
    split
    · simp
    · simp only [List.mem_cons, mem_insert]
      constructor
      · rintro (h | h | h)
        · exact .inr (.inl h)
        · exact .inl h
        · exact .inr (.inr h)
      · rintro (h | h | h)
        · exact .inr (.inl h)
        · exact .inl h
        · exact .inr (.inr h)

theorem mem_sort {y : Str × Fn} : ∀ {l : List (Str × Fn)}, y ∈ sortItems l ↔ y ∈ l
  | [] => Iff.rfl
  | x :: l => by rw [sortItems, mem_insert, mem_sort, List.mem_cons]

theorem insert_sorted {x : Str × Fn} : ∀ {l : List (Str × Fn)}, l.Pairwise (fun x y => strLt x.1 y.1 = true) →
    (∀ y ∈ l, y.1 ≠ x.1) → (insert x l).Pairwise fun x y => strLt x.1 y.1 = true
  | [], _, _ => by simp [insert]
  | y :: l, hl, hx => by
    rw [List.pairwise_cons] at hl
    rw [insert]
    split
    · rename_i h
      rw [List.pairwise_cons]
      refine ⟨fun z hz => ?_, List.pairwise_cons.2 hl⟩
      rcases List.mem_cons.1 hz with rfl | hz
      · exact h
      · exact strLt_trans _ _ _ h (hl.1 z hz)
    · rename_i h
      rw [List.pairwise_cons]
      refine ⟨fun z hz => ?_, insert_sorted hl.2 fun z hz => hx z (by simp [hz])⟩
      rcases mem_insert.1 hz with rfl | hz
      · rcases strLt_total _ _ (by simpa using h) with h | h
        · exact absurd h.symm (hx y (by simp))
        · exact h
      · exact hl.1 z hz

theorem sort_sorted : ∀ {l : List (Str × Fn)}, (l.map (·.1)).Nodup →
    (sortItems l).Pairwise fun x y => strLt x.1 y.1 = true
  | [], _ => .nil
  | x :: l, h => by
    rw [List.map_cons, List.nodup_cons] at h
    rw [sortItems]
    refine insert_sorted (sort_sorted h.2) fun y hy he => h.1 ?_
    rw [← he]
    exact List.mem_map_of_mem (mem_sort.1 hy)

/-! The functions. -/

theorem shown (f : Fn) : Shown f (formatFunction f) := by
  obtain ⟨m, q, r⟩ := f
  unfold formatFunction
  cases q with
  | none =>
    cases m with
    | none => exact .noModule
    | some m => cases m with
      | none => exact .noName
      | some m => cases m <;> exact .noName
  | some q =>
    cases m with
    | none => exact .noModule
    | some m => cases m with
      | none => exact .console
      | some m => cases m with
        | nil => exact .console'
        | cons c m =>
          show Shown _ ((c :: m) ++ ['.'] ++ q)
          rw [List.append_assoc]
          exact .full (by simp)

theorem shown_det {f : Fn} {a b : Str} (h1 : Shown f a) (h2 : Shown f b) : a = b := by
  cases h1 <;> cases h2 <;> first | rfl | contradiction

/-! The list. -/

theorem mem_iff_get (d : Dict String Nat) (hd : d.WF) (k : String) (v : Nat) : (k, v) ∈ d ↔ d.get k = some v :=
  ⟨fun h => Dict.mem_get _ hd _ _ h, fun h => Dict.get_mem _ _ _ h⟩

theorem mem_reported {describe : Nat → Fn} {g : Bool} {locals globals : Dict String Nat} (hl : locals.WF) (hg : globals.WF)
    {k : Str} {f : Fn} : (k, f) ∈ reported describe g locals globals ↔
      ∃ n i, k = n.toList ∧ f = describe i ∧ Binding g locals globals n i := by
  unfold reported Binding
  rw [List.mem_map]
  cases g with
  | false =>
    simp only [Bool.false_eq_true, if_false, false_and, or_false]
    constructor
    · rintro ⟨⟨n, i⟩, h, hx⟩
      cases hx
      exact ⟨n, i, rfl, rfl, (mem_iff_get _ hl _ _).1 h⟩
    · rintro ⟨n, i, rfl, rfl, h⟩
      exact ⟨(n, i), (mem_iff_get _ hl _ _).2 h, rfl⟩
  | true =>
    simp only [if_true, true_and]
    have key : ∀ n i, (n, i) ∈ globals.update locals ↔
        locals.get n = some i ∨ locals.get n = none ∧ globals.get n = some i := by
      intro n i
      rw [mem_iff_get _ (Dict.WF_update _ _ hg), Dict.get_update _ _ hl]
      cases h : locals.get n with
      | none => simp
      | some j => simp
    constructor
    · rintro ⟨⟨n, i⟩, h, hx⟩
      cases hx
      exact ⟨n, i, rfl, rfl, (key n i).1 h⟩
    · rintro ⟨n, i, rfl, rfl, h⟩
      exact ⟨(n, i), (key n i).2 h, rfl⟩

theorem reported_nodup {describe : Nat → Fn} {g : Bool} {locals globals : Dict String Nat} (hl : locals.WF) (hg : globals.WF) :
    ((reported describe g locals globals).map (·.1)).Nodup := by
  unfold reported
  rw [List.map_map]
  have key : ∀ d : Dict String Nat, d.WF →
      (d.map ((fun x : Str × Fn => x.1) ∘ fun (x : String × Nat) => (x.1.toList, describe x.2))).Nodup := by
    intro d hd
    have : d.map ((fun x : Str × Fn => x.1) ∘ fun (x : String × Nat) => (x.1.toList, describe x.2)) =
        d.keys.map String.toList := by
      unfold Dict.keys
      rw [List.map_map]
      rfl
    rw [this]
    exact List.Pairwise.map _ (fun a b h hc => h (String.toList_inj.1 hc)) hd
  cases g with
  | false => exact key _ hl
  | true => exact key _ (Dict.WF_update _ _ hg)

/-- What the report shows. -/
def texts (l : List (Str × Fn)) : List (Str × Str) := (sortItems l).map fun x => (x.1, formatFunction x.2)

theorem lists {describe : Nat → Fn} {g : Bool} {locals globals : Dict String Nat} (hl : locals.WF) (hg : globals.WF) :
    Lists describe g locals globals (texts (reported describe g locals globals)) where
  sorted := by
    unfold texts
    rw [List.pairwise_map]
    exact (sort_sorted (reported_nodup hl hg)).imp fun h => (strLt_iff _ _).1 h
  sound := by
    intro k f h
    obtain ⟨⟨k', f'⟩, h1, hx⟩ := List.mem_map.1 h
    cases hx
    obtain ⟨n, i, rfl, rfl, hb⟩ := (mem_reported hl hg).1 (mem_sort.1 h1)
    exact ⟨n, i, rfl, hb, shown _⟩
  complete := by
    intro n i hb
    refine ⟨_, List.mem_map.2 ⟨(n.toList, describe i), mem_sort.2 ((mem_reported hl hg).2 ⟨n, i, rfl, rfl, hb⟩), rfl⟩, shown _⟩

theorem lines : ∀ l : List (Str × Fn), Lines (l.map fun x => (x.1, formatFunction x.2)) (l.map (line none)).flatten
  | [] => .nil
  | x :: l => by
    have := Lines.cons (k := x.1) (f := formatFunction x.2) (lines l)
    rw [List.map_cons, List.map_cons, List.flatten_cons]
    have he : line none x ++ (l.map (line none)).flatten =
        "    ".toList ++ x.1 ++ ": ".toList ++ formatFunction x.2 ++ '\n' :: (l.map (line none)).flatten := by
      unfold line colorize
      rw [List.append_assoc]
      rfl
    rw [he]
    exact this

theorem texts_nil {l : List (Str × Fn)} : texts l = [] ↔ l = [] := by
  constructor
  · intro h
    cases l with
    | nil => rfl
    | cons x l =>
      have : x ∈ sortItems (x :: l) := mem_sort.2 (by simp)
      rw [List.map_eq_nil_iff.1 h] at this
      cases this
  · rintro rfl; rfl

theorem report {describe : Nat → Fn} {g : Bool} {filename : Str} {locals globals : Dict String Nat} :
    Report filename (texts (reported describe g locals globals)) (format describe none g filename locals globals) := by
  unfold format setColor colorize
  simp only [List.nil_append, List.append_nil]
  cases h : reported describe g locals globals with
  | nil =>
    have : texts [] = [] := rfl
    rw [this]
    simp only [List.isEmpty_nil, if_true]
    have he : lit "Macro bindings for " ++ filename ++ lit ":" ++ lit "\n" ++ lit "    <no bindings>\n" =
        "Macro bindings for ".toList ++ filename ++ ":\n    <no bindings>\n".toList := by
      simp only [List.append_assoc]; rfl
    rw [he]
    exact .empty
  | cons x l =>
    have he : lit "Macro bindings for " ++ filename ++ lit ":" ++ lit "\n" ++ ((sortItems (x :: l)).map (line none)).flatten =
        "Macro bindings for ".toList ++ filename ++ ":\n".toList ++ ((sortItems (x :: l)).map (line none)).flatten := by
      simp only [List.append_assoc]; rfl
    simp only [List.isEmpty_cons, Bool.false_eq_true, if_false]
    rw [he]
    exact .lines (fun hc => by rw [texts_nil] at hc; cases hc) (lines _)

/-! Reading the report. -/

theorem cut {c : Char} : ∀ {a b s t : Str}, c ∉ a → c ∉ b → a ++ c :: s = b ++ c :: t → a = b ∧ s = t
  | [], [], _, _, _, _, h => by cases h; exact ⟨rfl, rfl⟩
  | [], x :: b, _, _, _, hb, h => by cases h; exact absurd List.mem_cons_self hb
  | x :: a, [], _, _, ha, _, h => by cases h; exact absurd List.mem_cons_self ha
  | x :: a, y :: b, s, t, ha, hb, h => by
    rw [List.cons_append, List.cons_append, List.cons.injEq] at h
    obtain ⟨rfl, h⟩ := h
    obtain ⟨rfl, rfl⟩ := cut (fun hc => ha (List.mem_cons_of_mem _ hc)) (fun hc => hb (List.mem_cons_of_mem _ hc)) h
    exact ⟨rfl, rfl⟩

theorem line_split {k f t k' f' t' : Str} (h1 : ':' ∉ k ∧ '\n' ∉ k ∧ '\n' ∉ f) (h2 : ':' ∉ k' ∧ '\n' ∉ k' ∧ '\n' ∉ f')
    (h : "    ".toList ++ k ++ ": ".toList ++ f ++ '\n' :: t = "    ".toList ++ k' ++ ": ".toList ++ f' ++ '\n' :: t') :
    k = k' ∧ f = f' ∧ t = t' := by
  simp only [List.append_assoc] at h
  have h3 := List.append_cancel_left h
  obtain ⟨rfl, h4⟩ := cut (s := ' ' :: (f ++ '\n' :: t)) (t := ' ' :: (f' ++ '\n' :: t')) h1.1 h2.1 h3
  rw [List.cons.injEq] at h4
  obtain ⟨rfl, rfl⟩ := cut h1.2.2 h2.2.2 h4.2
  exact ⟨rfl, rfl, rfl⟩

theorem lines_det {l l' : List (Str × Str)} {t t' : Str} (h : Lines l t) (h' : Lines l' t') (hf : Fit l) (hf' : Fit l')
    (ht : t = t') : l = l' := by
  induction h generalizing l' t' with
  | nil =>
    cases h' with
    | nil => rfl
    | cons _ => cases ht
  | @cons k f l t _ ih =>
    cases h' with
    | nil => cases ht
    | @cons k' f' l' t' h' =>
      obtain ⟨rfl, rfl, rfl⟩ := line_split (hf k f (by simp)) (hf' k' f' (by simp)) ht
      rw [ih h' (fun a b hm => hf a b (by simp [hm])) (fun a b hm => hf' a b (by simp [hm])) rfl]

theorem report_det {fn fn' : Str} {l l' : List (Str × Str)} {t : Str} (h : Report fn l t) (h' : Report fn' l' t) (hf : Fit l)
    (hf' : Fit l') (hn : '\n' ∉ fn) (hn' : '\n' ∉ fn') : fn = fn' ∧ l = l' := by
  have head : ∀ {a b : Str}, "Macro bindings for ".toList ++ fn ++ ':' :: '\n' :: a =
      "Macro bindings for ".toList ++ fn' ++ ':' :: '\n' :: b → fn = fn' ∧ a = b := by
    intro a b he
    rw [List.append_assoc, List.append_assoc] at he
    have he := List.append_cancel_left he
    have he2 : (fn ++ [':']) ++ '\n' :: a = (fn' ++ [':']) ++ '\n' :: b := by simpa using he
    obtain ⟨h1, h2⟩ := cut (by simp [hn]) (by simp [hn']) he2
    exact ⟨List.append_cancel_right h1, h2⟩
  have apart : ∀ {l : List (Str × Str)} {t : Str}, l ≠ [] → Lines l t → Fit l → t ≠ "    <no bindings>\n".toList := by
    intro l t hl hL hF hc
    cases hL with
    | nil => exact hl rfl
    | @cons k f l t _ =>
      have hm : ':' ∈ "    <no bindings>\n".toList := by rw [← hc]; simp
      exact absurd hm (by decide)
  have e1 : ∀ (f s : Str), "Macro bindings for ".toList ++ f ++ ":\n".toList ++ s =
      "Macro bindings for ".toList ++ f ++ ':' :: '\n' :: s := by
    intro f s; rw [List.append_assoc]; rfl
  have e2 : ∀ f : Str, "Macro bindings for ".toList ++ f ++ ":\n    <no bindings>\n".toList =
      "Macro bindings for ".toList ++ f ++ ':' :: '\n' :: "    <no bindings>\n".toList := fun f => rfl
  generalize ht : t = t' at h'
  cases h with
  | empty =>
    cases h' with
    | empty =>
      rw [e2, e2] at ht
      exact ⟨(head ht).1, rfl⟩
    | lines hl hL =>
      rw [e1, e2] at ht
      exact absurd (head ht).2.symm (apart hl hL hf')
  | lines hl hL =>
    cases h' with
    | empty =>
      rw [e1, e2] at ht
      exact absurd (head ht).2 (apart hl hL hf)
    | lines hl' hL' =>
      rw [e1, e1] at ht
      obtain ⟨rfl, rfl⟩ := head ht
      exact ⟨rfl, lines_det hL hL' hf hf' rfl⟩

theorem lines_fun {l : List (Str × Str)} {t t' : Str} (h : Lines l t) (h' : Lines l t') : t = t' := by
  induction h generalizing t' with
  | nil => cases h'; rfl
  | cons _ ih => cases h' with | cons h' => rw [ih h']

theorem report_fun {fn : Str} {l : List (Str × Str)} {t t' : Str} (h : Report fn l t) (h' : Report fn l t') : t = t' := by
  cases h with
  | empty =>
    cases h' with
    | empty => rfl
    | lines hl _ => exact absurd rfl hl
  | lines hl hL =>
    cases h' with
    | empty => exact absurd rfl hl
    | lines _ hL' => rw [lines_fun hL hL']

/-! Colors. -/

open Dump (Vis visible Codes)

theorem vis_set {P : Option Palette} (hP : ∀ Q, P = some Q → Q.Lawful) {which : Palette → Str}
    (hw : ∀ Q : Palette, Q.Lawful → Codes (which Q)) : Vis (setColor P which) [] := by
  unfold setColor
  cases P with
  | none => exact .nil
  | some Q =>
    have := (hP Q rfl).reset.vis.append (hw Q (hP Q rfl)).vis
    simpa using this

theorem vis_colorize {P : Option Palette} (hP : ∀ Q, P = some Q → Q.Lawful) {which : Palette → Str}
    (hw : ∀ Q : Palette, Q.Lawful → Codes (which Q)) {t p : Str} (h : Vis t p) : Vis (colorize P which t) p := by
  unfold colorize
  cases P with
  | none => exact h
  | some Q =>
    have := (((hP Q rfl).reset.vis.append (hw Q (hP Q rfl)).vis).append h).append (hP Q rfl).reset.vis
    simpa using this

theorem vis_line {P : Option Palette} (hP : ∀ Q, P = some Q → Q.Lawful) {x : Str × Fn} (h1 : '\x1b' ∉ x.1)
    (h2 : '\x1b' ∉ formatFunction x.2) : Vis (line P x) (line none x) := by
  have pl : ∀ {s : Str}, '\x1b' ∉ s → Vis s s := fun h => Vis.plain fun c hc he => h (he ▸ hc)
  unfold line
  exact ((((pl (by decide)).append (vis_colorize hP (fun Q h => h.name) (pl h1))).append (pl (by decide))).append
    (pl h2)).append (pl (by decide))

theorem vis_lines {P : Option Palette} (hP : ∀ Q, P = some Q → Q.Lawful) : ∀ {l : List (Str × Fn)},
    (∀ x ∈ l, '\x1b' ∉ x.1 ∧ '\x1b' ∉ formatFunction x.2) → Vis (l.map (line P)).flatten (l.map (line none)).flatten
  | [], _ => .nil
  | x :: l, h => by
    rw [List.map_cons, List.map_cons, List.flatten_cons, List.flatten_cons]
    exact (vis_line hP (h x (by simp)).1 (h x (by simp)).2).append (vis_lines hP fun y hy => h y (by simp [hy]))

theorem vis_format {P : Option Palette} (hP : ∀ Q, P = some Q → Q.Lawful) {describe : Nat → Fn} {g : Bool} {filename : Str}
    {locals globals : Dict String Nat} (hf : '\x1b' ∉ filename)
    (h : ∀ x ∈ reported describe g locals globals, '\x1b' ∉ x.1 ∧ '\x1b' ∉ formatFunction x.2) :
    Vis (format describe P g filename locals globals) (format describe none g filename locals globals) := by
  have pl : ∀ {s : Str}, '\x1b' ∉ s → Vis s s := fun h => Vis.plain fun c hc he => h (he ▸ hc)
  have hh := vis_set hP (which := Palette.heading) fun Q h => h.heading
  have hs := vis_set hP (which := Palette.source) fun Q h => h.source
  have h0 := vis_set hP (which := fun _ => []) fun _ _ => .nil
  unfold format
  simp only
  refine Vis.append ?_ ?_
  · have := ((((((hh.append (pl (s := lit "Macro bindings for ") (by decide))).append hs).append (pl hf)).append hh).append
      (pl (s := lit ":") (by decide))).append h0).append (pl (s := lit "\n") (by decide))
    exact this
  · split
    · exact vis_colorize hP (fun Q h => h.grey) (pl (by decide))
    · exact vis_lines hP fun x hx => h x (mem_sort.1 hx)

end Mcpyrate.Bindings
