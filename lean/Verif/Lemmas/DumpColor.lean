import Verif.Lemmas.Dump
import Verif.Spec.DumpColor
/-
Lemmas for C62: colors, and what the dump does not depend on.
-/
namespace Mcpyrate.Dump
open Py
open Unparse hiding Str
open PyText

/-! ### What is not shown -/

theorem attrVal_seen (a : Attr) : attrVal (seen a) = attrVal a := by cases a <;> rfl

theorem attributes_seen (l : Loc) :
    attributes ⟨seen l.lineno, seen l.colOffset, seen l.endLineno, seen l.endColOffset⟩ = attributes l := by
  simp only [attributes, attrVal_seen]

mutual
theorem recurse_shown {H : Host} {o : Options} (v : Val) (n : Nat) :
    recurse H o n (shown o.attributes v) = recurse H o n v := by
  match v with
  | .const c => rw [shown]
  | .list xs => rw [shown, recurse, recurse, itemTexts_shown xs]
  | .node c l fs =>
    rw [shown, recurse, recurse]
    dsimp only
    rw [fieldTexts_shown fs]
    by_cases hb : o.attributes = true ∧ c.hasLoc = true
    · rw [if_pos (by simp [hb.1, hb.2]), if_pos (by simp [hb.1, hb.2])]
      unfold seenLoc
      rw [if_pos hb, attributes_seen]
    · have hb' : ¬ (o.attributes && c.hasLoc) = true := by simpa using hb
      rw [if_neg hb', if_neg hb']
termination_by structural v
theorem fieldTexts_shown {H : Host} {o : Options} (fs : Fields) (n : Nat) :
    fieldTexts H o n (shownF o.attributes fs) = fieldTexts H o n fs := by
  match fs with
  | [] => rw [shownF]
  | (f, v) :: fs => rw [shownF, fieldTexts, fieldTexts, recurse_shown v, fieldTexts_shown fs]
termination_by structural fs
theorem itemTexts_shown {H : Host} {o : Options} (xs : List Val) (n : Nat) :
    itemTexts H o n (shownL o.attributes xs) = itemTexts H o n xs := by
  match xs with
  | [] => rw [shownL]
  | x :: xs => rw [shownL, itemTexts, itemTexts, recurse_shown x, itemTexts_shown xs]
termination_by structural xs
end

/-! ### Colors -/

/-- What is visible of `t` is `p`. -/
def Vis (t p : Str) : Prop := ∀ r, visible false (t ++ r) = p ++ visible false r

theorem Vis.append {t p t' p' : Str} (h : Vis t p) (h' : Vis t' p') : Vis (t ++ t') (p ++ p') := by
  intro r
  rw [List.append_assoc, h, h', List.append_assoc]

theorem Vis.nil : Vis [] [] := fun _ => rfl

theorem Vis.plain : ∀ {t : Str}, (∀ c ∈ t, c ≠ '\x1b') → Vis t t
  | [], _ => .nil
  | c :: t, h => by
    intro r
    rw [List.cons_append, visible, if_neg (h c (by simp)), Vis.plain (t := t) (fun d hd => h d (by simp [hd])) r]
    rfl

theorem visible_code : ∀ {s : Str}, (∀ c ∈ s, c ≠ 'm') → ∀ r, visible true (s ++ 'm' :: r) = visible false r
  | [], _, r => by rw [List.nil_append, visible]; rfl
  | c :: s, h, r => by
    rw [List.cons_append, visible]
    have : decide (c ≠ 'm') = true := by simp [h c (by simp)]
    rw [this]
    exact visible_code (fun d hd => h d (by simp [hd])) r

theorem Codes.vis {s : Str} (h : Codes s) : Vis s [] := by
  induction h with
  | nil => exact .nil
  | @cons s r hs _ ih =>
    intro q
    rw [List.cons_append, List.cons_append, visible, if_pos rfl, List.append_assoc, List.cons_append, visible_code hs]
    exact ih q

theorem Vis.maybe {o : Options} (ho : ∀ P, o.color = some P → P.Lawful) {which : Palette → Str}
    (hw : ∀ P : Palette, P.Lawful → Codes (which P)) {t p : Str} (h : Vis t p) : Vis (maybeColorize o which t) p := by
  unfold maybeColorize
  cases hc : o.color with
  | none => exact h
  | some P =>
    have hP := ho P hc
    show Vis (colorize P (which P) t) p
    unfold colorize
    have := ((hP.reset.vis.append (hw P hP).vis).append h).append hP.reset.vis
    simpa using this

theorem Vis.value {o : Options} (ho : ∀ P, o.color = some P → P.Lawful) {t p : Str} (h : Vis t p) :
    Vis (maybeColorizeValue o t) p := by
  unfold maybeColorizeValue
  split
  · exact h
  · exact h.maybe ho fun _ hP => hP.bare

theorem word_visible {c : Char} (h : wordChar c = true) : c ≠ '\x1b' := by
  rintro rfl
  revert h; decide

theorem hexDigit_visible (n : Nat) : hexDigit n ≠ '\x1b' := by
  unfold hexDigit
  by_cases h : n < 16
  · have : ∀ k : Fin 16, "0123456789abcdef".toList.getD k.val '0' ≠ '\x1b' := by decide
    exact this ⟨n, h⟩
  · rw [List.getD_eq_getElem?_getD, List.getElem?_eq_none (by show 16 ≤ n; omega)]; decide

theorem hex_visible : ∀ k n, ∀ c ∈ hex k n, c ≠ '\x1b'
  | 0, _, c, h => by rw [hex] at h; cases h
  | k + 1, n, c, h => by
    rw [hex] at h
    rcases List.mem_append.1 h with h | h
    · exact hex_visible k _ c h
    · rw [List.mem_singleton.1 h]; exact hexDigit_visible _

theorem lit_visible {s : Str} (h : s.all (· ≠ '\x1b') = true) : ∀ c ∈ s, c ≠ '\x1b' := by
  intro c hc
  have := List.all_eq_true.1 h c hc
  simpa using this

theorem append_visible {s t : Str} (hs : ∀ c ∈ s, c ≠ '\x1b') (ht : ∀ c ∈ t, c ≠ '\x1b') : ∀ c ∈ s ++ t, c ≠ '\x1b' := by
  intro c hc
  rcases List.mem_append.1 hc with h | h
  · exact hs c h
  · exact ht c h

theorem escapeChar_visible (H : Host) {q : Char} (hq : q = '\'' ∨ q = '"') (c : Char) : ∀ x ∈ escapeChar H q c, x ≠ '\x1b' := by
  have hc : ¬ (c.toNat < 32 ∨ c.toNat = 127) → c ≠ '\x1b' := by
    rintro h rfl; exact h (.inl (by decide))
  have one : c ≠ '\x1b' → ∀ x ∈ [c], x ≠ '\x1b' := fun h x hx => by rw [List.mem_singleton.1 hx]; exact h
  unfold escapeChar
  split
  · rename_i h
    intro x hx
    simp only [List.mem_cons, List.not_mem_nil, or_false] at hx
    rcases hx with rfl | rfl
    · decide
    · rcases h with rfl | rfl
      · rcases hq with rfl | rfl <;> decide
      · decide
  · split
    · exact lit_visible (by decide)
    · split
      · exact lit_visible (by decide)
      · split
        · exact lit_visible (by decide)
        · split
          · exact append_visible (lit_visible (by decide)) (hex_visible _ _)
          · rename_i h
            split
            · exact one (hc h)
            · split
              · exact one (hc h)
              · split
                · exact append_visible (lit_visible (by decide)) (hex_visible _ _)
                · split
                  · exact append_visible (lit_visible (by decide)) (hex_visible _ _)
                  · exact append_visible (lit_visible (by decide)) (hex_visible _ _)

theorem escapeByte_visible {q : Char} (hq : q = '\'' ∨ q = '"') (b : Nat) : ∀ x ∈ escapeByte q b, x ≠ '\x1b' := by
  unfold escapeByte
  split
  · rename_i h
    intro x hx
    simp only [List.mem_cons, List.not_mem_nil, or_false] at hx
    rcases hx with rfl | rfl
    · decide
    · rcases h with rfl | rfl
      · rcases hq with rfl | rfl <;> decide
      · decide
  · split
    · exact lit_visible (by decide)
    · split
      · exact lit_visible (by decide)
      · split
        · exact lit_visible (by decide)
        · split
          · exact append_visible (lit_visible (by decide)) (hex_visible _ _)
          · rename_i h
            intro x hx
            rw [List.mem_singleton.1 hx]
            intro e
            have := ascii_char ⟨b, by omega⟩
            rw [e] at this
            have h27 : ('\x1b' : Char).toNat = 27 := by decide
            rw [h27] at this
            dsimp only at this
            omega

theorem const_visible {H : Host} {c : Const} (h : RegularConst c) : ∀ x ∈ reprConst H c, x ≠ '\x1b' := by
  rcases const_cases h with hw | ⟨s, rfl⟩ | ⟨b, rfl⟩ | ⟨r, s, rfl, hs, hx⟩
  · intro x hx
    exact word_visible ((wordConst_chars (H := H) hw h).1 x hx)
  · obtain ⟨q, hq, e⟩ := repr_str (H := H) (s := s)
    have e := e []
    rw [List.append_nil] at e
    have hq' : q ≠ '\x1b' := by rcases hq with rfl | rfl <;> decide
    rw [e]
    intro x hx
    simp only [List.mem_cons, List.mem_append, List.mem_flatMap, List.not_mem_nil, or_false] at hx
    rcases hx with rfl | ⟨c, -, hc⟩ | rfl
    · exact hq'
    · exact escapeChar_visible H hq c x hc
    · exact hq'
  · obtain ⟨q, hq, e⟩ := repr_bytes (H := H) (b := b)
    have e := e []
    rw [List.append_nil] at e
    have hq' : q ≠ '\x1b' := by rcases hq with rfl | rfl <;> decide
    rw [e]
    intro x hx
    simp only [List.mem_cons, List.mem_append, List.mem_flatMap, List.not_mem_nil, or_false] at hx
    rcases hx with rfl | rfl | ⟨c, -, hc⟩ | rfl
    · decide
    · exact hq'
    · exact escapeByte_visible hq c x hc
    · exact hq'
  · rw [repr_complex, hx]
    intro x hm
    simp only [List.cons_append, List.mem_cons, List.mem_append, List.not_mem_nil, or_false] at hm
    rcases hm with rfl | hm | rfl | rfl
    · decide
    · exact word_visible (numeric_word (hs x hm))
    · decide
    · decide

theorem separator_vis (o : Options) (n : Nat) : Vis (separator o n) (separator o.plain n) := by
  have : separator o.plain n = separator o n := rfl
  rw [this]
  refine .plain ?_
  unfold separator
  split
  · refine append_visible (lit_visible (by decide)) ?_
    intro c hc
    rw [List.eq_of_mem_replicate hc]; decide
  · exact lit_visible (by decide)

/-- Lists of texts, one by one. -/
inductive VisL : List Str → List Str → Prop
  | nil : VisL [] []
  | cons {t p : Str} {ts ps : List Str} (h : Vis t p) (hs : VisL ts ps) : VisL (t :: ts) (p :: ps)

theorem VisL.append {ts ps ts' ps' : List Str} (h : VisL ts ps) (h' : VisL ts' ps') : VisL (ts ++ ts') (ps ++ ps') := by
  induction h with
  | nil => exact h'
  | cons h _ ih => exact .cons h ih

theorem VisL.inter {ts ps : List Str} (h : VisL ts ps) {sep sep' : Str} (hs : Vis sep sep') :
    Vis (sep.intercalate ts) (sep'.intercalate ps) := by
  cases h with
  | nil => exact .nil
  | cons h ht =>
    rw [inter_cons, inter_cons]
    refine h.append ?_
    clear h
    induction ht with
    | nil => exact .nil
    | cons h _ ih =>
      rw [List.flatMap_cons, List.flatMap_cons]
      exact (hs.append h).append ih

theorem Codes.head {s : Str} (h : Codes s) : s = [] ∨ ∃ w, s = '\x1b' :: w := by
  cases h with
  | nil => exact .inl rfl
  | cons => exact .inr ⟨_, rfl⟩

theorem recurse_head_color {H : Host} {o : Options} (ho : ∀ P, o.color = some P → P.Lawful) {n : Nat} {v : Val} (h : Regular v) :
    ∃ x w, recurse H o n v = x :: w ∧ Dialects.isSpace x = false := by
  cases v with
  | const c =>
    obtain ⟨x, w, e, hx⟩ := const_head (H := H) (by rw [Regular] at h; exact h)
    rw [recurse]; exact ⟨x, w, e, opening_not_space hx⟩
  | list xs =>
    rw [recurse]
    obtain ⟨w, e⟩ := bracketed_head (separator o (n + 1)) (itemTexts H o (n + 1) xs)
    exact ⟨_, w, e, by decide⟩
  | node c l fs =>
    rw [Regular] at h
    obtain ⟨h1, h2⟩ := className_word h.1
    rw [recurse_node]
    have key : ∃ x w, maybeColorize o Palette.node (className c) = x :: w ∧ Dialects.isSpace x = false := by
      have base : ∃ x w, className c = x :: w ∧ Dialects.isSpace x = false := by
        cases e : className c with
        | nil => exact absurd e h2
        | cons x w => exact ⟨x, w, rfl, opening_not_space (by unfold opening; rw [h1 x (by rw [e]; simp)]; rfl)⟩
      unfold maybeColorize
      cases hc : o.color with
      | none => exact base
      | some P =>
        have hP := ho P hc
        show ∃ x w, colorize P P.node (className c) = x :: w ∧ _
        unfold colorize
        rcases hP.reset.head with e | ⟨w, e⟩
        · rw [e]
          rcases hP.node.head with e' | ⟨w, e'⟩
          · rw [e']
            obtain ⟨x, w, e, hx⟩ := base
            rw [e]; exact ⟨x, _, rfl, hx⟩
          · rw [e']; exact ⟨_, _, rfl, by decide⟩
        · rw [e]; exact ⟨_, _, rfl, by decide⟩
    obtain ⟨x, w, e, hx⟩ := key
    rw [e]; exact ⟨x, _, rfl, hx⟩

theorem entry_vis {o : Options} (ho : ∀ P, o.color = some P → P.Lawful) {k t p : Str} (hk : ∀ c ∈ k, wordChar c = true)
    (h : Vis t p) : Vis (entry o k t) (entry o.plain k p) := by
  have e : entry o.plain k p = k ++ lit "=" ++ p := by
    unfold entry maybeColorizeValue maybeColorize Options.plain
    simp only [ite_self]
  rw [e]
  unfold entry
  exact (((Vis.plain fun c hc => word_visible (hk c hc)).maybe ho fun _ hP => hP.field).append
    (.plain (lit_visible (by decide)))).append (h.value ho)

mutual
theorem recurse_vis {H : Host} {o : Options} (ho : ∀ P, o.color = some P → P.Lawful) (v : Val) (h : Regular v) (n : Nat) :
    Vis (recurse H o n v) (recurse H o.plain n v) := by
  match v with
  | .const c =>
    rw [Regular] at h
    rw [recurse, recurse]
    exact .plain (const_visible h)
  | .list xs =>
    rw [Regular] at h
    have hx := regularL h
    have : recurse H o n (.list xs) =
        '[' :: ((separator o (n + 1)).intercalate (xs.map (recurse H o (n + 1))) ++ [']']) := by
      rw [recurse, itemTexts_eq, bracketed_eq]
      intro t ht
      obtain ⟨x, hm, rfl⟩ := List.mem_map.1 ht
      exact recurse_head_color ho (hx x hm)
    rw [this, recurse_list (o := o.plain) rfl hx]
    refine Vis.append (t := ['[']) (p := ['[']) (.plain (lit_visible (by decide))) ?_
    refine Vis.append ?_ (.plain (lit_visible (by decide)))
    exact (itemTexts_vis ho xs h (n + 1)).inter (separator_vis o _)
  | .node c l fs =>
    rw [Regular] at h
    rw [recurse, recurse]
    dsimp only
    have hn : maybeColorize o.plain Palette.node (className c) = className c := rfl
    rw [hn]
    have hw := (className_word h.1).1
    refine Vis.append (Vis.append (Vis.append
      ((Vis.plain fun x hx => word_visible (hw x hx)).maybe ho fun _ hP => hP.node) (.plain (lit_visible (by decide)))) ?_)
      (.plain (lit_visible (by decide)))
    refine VisL.inter ?_ (separator_vis o _)
    refine (fieldTexts_vis ho fs h.2 _).append ?_
    have ha : o.plain.attributes = o.attributes := rfl
    rw [ha]
    split
    · have : ∀ {es : List (Str × Val)}, (∀ e ∈ es, (∀ c ∈ e.1, wordChar c = true) ∧ ∃ c, e.2 = .const c ∧ RegularConst c) →
          VisL (es.map fun (k, v) => entry o k (scalar H v)) (es.map fun (k, v) => entry o.plain k (scalar H v)) := by
        intro es he
        induction es with
        | nil => exact .nil
        | cons e es ih =>
          refine .cons ?_ (ih fun e' he' => he e' (by simp [he']))
          obtain ⟨h1, c, h2, h3⟩ := he e (by simp)
          refine entry_vis ho h1 ?_
          rw [h2]
          exact .plain (const_visible h3)
      exact this fun e he => ⟨(attr_entry he).1, (attr_entry he).2.2⟩
    · exact .nil
termination_by structural v
theorem fieldTexts_vis {H : Host} {o : Options} (ho : ∀ P, o.color = some P → P.Lawful) (fs : Fields) (h : RegularF fs) (n : Nat) :
    VisL (fieldTexts H o n fs) (fieldTexts H o.plain n fs) := by
  match fs with
  | [] => rw [fieldTexts, fieldTexts]; exact .nil
  | (f, v) :: fs =>
    rw [RegularF] at h
    rw [fieldTexts, fieldTexts]
    have := field_word f
    simp only [Bool.and_eq_true, List.all_eq_true] at this
    exact .cons (entry_vis ho this.1 (recurse_vis ho v h.1 _)) (fieldTexts_vis ho fs h.2 n)
termination_by structural fs
theorem itemTexts_vis {H : Host} {o : Options} (ho : ∀ P, o.color = some P → P.Lawful) (xs : List Val) (h : RegularL xs) (n : Nat) :
    VisL (xs.map (recurse H o n)) (xs.map (recurse H o.plain n)) := by
  match xs with
  | [] => exact .nil
  | x :: xs =>
    rw [RegularL] at h
    exact .cons (recurse_vis ho x h.1 n) (itemTexts_vis ho xs h.2 n)
termination_by structural xs
end

end Mcpyrate.Dump
