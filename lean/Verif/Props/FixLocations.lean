import Verif.Lemmas.FixLocations
/-
C14 fix_locations.  `ref` is the location of the reference node, `source ref` the same with missing
end positions read as `None`.

Full property: mode 'reference' changes only missing attributes, mode 'update' agrees with
`ast.fix_missing_locations`.  Both are false when a node has an end position without the start
position or the other way round (`C14_reference_violated`, `C14_update_violated`).
-/
namespace Mcpyrate
open Py FixLocations

/-- C14: with a located reference node, in every mode, every node that can carry a location has one
afterwards. -/
theorem C14_all_located (t : Val) (ref : Loc) (mode : Mode) (ht : t.isTree = true)
    (hr : Located ref) :
    ∃ t', fixLocations t ref mode = .ok t' ∧
      ∀ c l fs, Reach t' (.node c l fs) → c.hasLoc = true → Located l := by
  refine ⟨_, fixLocations_eq t ref mode ht hr, fun c l fs hre hc => ?_⟩
  exact located_tmap mode (source ref) ⟨hr.1, hr.2⟩ t c l fs (mem_preorder.2 ⟨hre, rfl⟩) hc

/-- C14: nothing but location attributes changes. -/
theorem C14_only_locations (t t' : Val) (ref : Loc) (mode : Mode) (ht : t.isTree = true)
    (h : fixLocations t ref mode = .ok t') : eraseLoc t' = eraseLoc t := by
  by_cases hr : Located ref
  · rw [fixLocations_eq t ref mode ht hr] at h
    rw [← Except.ok.inj h, erase_tmap]
  · have hn : ¬ (Attr.has ref.lineno = true ∧ Attr.has ref.colOffset = true) := fun hh =>
      hr ⟨(has_iff _).1 hh.1, (has_iff _).1 hh.2⟩
    rw [fixLocations, if_pos hn] at h
    rw [Except.ok.inj h]

/-- C14: without a located reference node nothing happens, whatever the tree. -/
theorem C14_no_reference (t : Val) (ref : Loc) (mode : Mode) (hr : ¬ Located ref) :
    fixLocations t ref mode = .ok t := by
  have hn : ¬ (Attr.has ref.lineno = true ∧ Attr.has ref.colOffset = true) := fun hh =>
    hr ⟨(has_iff _).1 hh.1, (has_iff _).1 hh.2⟩
  rw [fixLocations, if_pos hn]

/-- C14, mode 'overwrite': every node that can carry a location gets the reference location. -/
theorem C14_overwrite (t t' : Val) (ref : Loc) (ht : t.isTree = true) (hr : Located ref)
    (h : fixLocations t ref .overwrite = .ok t') :
    locs t' = (locs t).map (onLocated fun _ => source ref) := by
  rw [fixLocations_eq t ref _ ht hr] at h
  rw [← Except.ok.inj h, locs_eq, locs_eq, locs_tmap _ _ _ (uniform_overwrite _)]

/-- C14, mode 'reference': each node is filled in from the reference node, independently of the
others; line number and column are kept where present. -/
theorem C14_reference (t t' : Val) (ref : Loc) (ht : t.isTree = true) (hr : Located ref)
    (h : fixLocations t ref .reference = .ok t') :
    locs t' = (locs t).map (onLocated (fill (source ref))) := by
  rw [fixLocations_eq t ref _ ht hr] at h
  rw [← Except.ok.inj h, locs_eq, locs_eq,
    locs_tmap _ _ _ (uniform_reference .reference (by decide) (by decide) _)]

/-- C14, mode 'reference', one node: only missing attributes change, provided a node without a start
position has no end position either. -/
theorem C14_reference_only_missing_partial (r l : Loc)
    (h1 : l.lineno = .missing → l.endLineno = .missing)
    (h2 : l.colOffset = .missing → l.endColOffset = .missing) :
    (l.lineno ≠ .missing → (fill r l).lineno = l.lineno) ∧
    (l.colOffset ≠ .missing → (fill r l).colOffset = l.colOffset) ∧
    (l.endLineno ≠ .missing → (fill r l).endLineno = l.endLineno) ∧
    (l.endColOffset ≠ .missing → (fill r l).endColOffset = l.endColOffset) ∧
    (l.lineno = .missing → (fill r l).lineno = r.lineno ∧ (fill r l).endLineno = r.endLineno) ∧
    (l.colOffset = .missing →
      (fill r l).colOffset = r.colOffset ∧ (fill r l).endColOffset = r.endColOffset) := by
  obtain ⟨ln, co, eln, eco⟩ := l
  cases ln <;> cases co <;> simp_all [fill]

/-- C14 fails: an end line that is there is overwritten in mode 'reference' if the line is missing. -/
theorem C14_reference_violated :
    ∃ t t' : Val, ∃ ref : Loc, fixLocations t ref .reference = .ok t' ∧
      locs t = [(.py .Pass, { endLineno := .int 7 })] ∧
      locs t' = [(.py .Pass, ⟨.int 1, .int 0, .int 1, .int 4⟩)] :=
  ⟨.node (.py .Pass) { endLineno := .int 7 } [], .node (.py .Pass) ⟨.int 1, .int 0, .int 1, .int 4⟩ [],
    ⟨.int 1, .int 0, .int 1, .int 4⟩, by decide⟩

/-- C14, mode 'update': the result is that of `ast.fix_missing_locations` seeded with the reference
location, on trees where start and end positions are there together. -/
theorem C14_update_partial (t t' : Val) (ref : Loc) (ht : t.isTree = true) (hr : Located ref)
    (hc : ∀ c l fs, Reach t (.node c l fs) → c.hasLoc = true → Consistent l)
    (h : fixLocations t ref .update = .ok t') : t' = stdFix (source ref) t := by
  rw [fixLocations_eq t ref _ ht hr] at h
  rw [← Except.ok.inj h]
  exact std_tmap _ t fun c l fs hm => hc c l fs (mem_preorder.1 hm).1

/-- C14 fails: a node with a line number but no end line number, as built by hand on Python 3.8+,
gets an end line number from `ast.fix_missing_locations` but not from mode 'update'; and the missing
end line is handed on to its children. -/
theorem C14_update_violated :
    ∃ t : Val, ∃ ref : Loc, t.isTree = true ∧ Located ref ∧
      fixLocations t ref .update ≠ .ok (stdFix (source ref) t) :=
  ⟨.node (.py .Expr) { lineno := .int 3, colOffset := .int 0 } [(.value, name "x")],
    ⟨.int 1, .int 0, .int 1, .int 4⟩, by decide⟩

/-! Concrete cases. -/
section
private def ref : Loc := ⟨.int 5, .int 2, .int 5, .int 9⟩
private def t0 : Val := .list [.node (.py .Expr) ⟨.int 3, .int 0, .int 3, .int 8⟩
  [(.value, mk .BinOp [(.left, name "x"), (.op, mk .Add []), (.right, name "y")])], mk .Pass []]
example : t0.isTree = true ∧ Located ref := by decide
example : (fixLocations t0 ref .update).map locs = .ok (locs (stdFix (source ref) t0)) := by decide
example : ∀ p ∈ locs (stdFix (source ref) t0), p.1 = .py .BinOp → p.2 = ⟨.int 3, .int 0, .int 3, .int 8⟩ := by
  decide
example : (fixLocations t0 ref .reference).map (fun t => (locs t).map (·.2.lineno)) =
    .ok [.int 3, .int 5, .int 5, .missing, .missing, .int 5, .missing, .int 5] := by decide
example : ∀ p ∈ locs t0, p.1.hasLoc = true → p.2 = {} ∨ p.2 = ⟨.int 3, .int 0, .int 3, .int 8⟩ := by decide
example : Consistent {} ∧ Consistent ⟨.int 3, .int 0, .int 3, .int 8⟩ := by simp [Consistent]
end

end Mcpyrate
