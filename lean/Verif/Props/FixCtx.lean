import Verif.Lemmas.FixCtx
/-
C12 fix_ctx on trees without shared nodes.
-/
namespace Mcpyrate
open Py FixCtx

/-- C12: after `fix_ctx`, every node that has a ctx has the one its position requires.  (The tree has
only targets in target positions; otherwise no ctx would be right.) -/
theorem C12_ctx_correct (t t' : Val) (ht : t.isTree = true) (hv : TargetsOk t)
    (h : fixCtx t = .ok t') (d : K) (c : Cls) (l : Loc) (fs : Fields)
    (ha : At .Load t' d (.node c l fs)) (hc : c.hasCtx = true) :
    fs.lookup .ctx = some (mk d []) := by
  rw [walk_tmap total .Load t t' h ht] at ha
  exact (CtxOk_at ha (ctx_tmap .Load (.inl rfl) t hv)).1 hc

/-- C12: nothing but `ctx` fields changes. -/
theorem C12_only_ctx (t t' : Val) (ht : t.isTree = true) (h : fixCtx t = .ok t') :
    eraseCtx t' = eraseCtx t := by
  rw [walk_tmap total .Load t t' h ht, erase_tmap]

/-- C12: a second run changes nothing. -/
theorem C12_idempotent (t t' t'' : Val) (ht : t.isTree = true) (h : fixCtx t = .ok t')
    (h2 : fixCtx t' = .ok t'') : t'' = t' := by
  have ht' : t'.isTree = true := by
    rw [walk_tmap total .Load t t' h ht]
    exact tmap_isTree K.Load t ht
  rw [walk_tmap total .Load t' t'' h2 ht', walk_tmap total .Load t t' h ht, idem_tmap]

/-- C12: a tree whose contexts are right is not changed at all. -/
theorem C12_identity (t t' : Val) (ht : t.isTree = true) (hv : TargetsOk t) (hr : AllRight t)
    (h : fixCtx t = .ok t') : t' = t := by
  rw [walk_tmap total .Load t t' h ht]
  exact id_tmap .Load t hv hr

/-- C12: `fix_ctx` succeeds when the fields that Python's grammar requires are there. -/
theorem C12_succeeds (t : Val) (ht : t.isTree = true) (h : FieldsOk t) : ∃ t', fixCtx t = .ok t' :=
  walk_ok (step := FixCtx.step) K.Load t ht (step_ok t h)

/-! Concrete case: `for a, *b[c] in d: del e.f`, all contexts missing or wrong. -/
section
private def prog (n : String → Option K → Val) (w : Option K → F × Val) (st dl ld : Option K) : Val :=
  mk .For [
    (.target, mk .Tuple [(.elts, .list [n "a" st,
      mk .Starred [(.value, mk .Subscript [(.value, n "b" ld), (.slice, n "c" ld), w st]), w st]]),
      w st]),
    (.iter, n "d" ld),
    (.body, .list [mk .Delete [(.targets, .list
      [mk .Attribute [(.value, n "e" ld), (.attr, .str "f"), w dl]])]]),
    (.orelse, .list []), (.type_comment, .none)]
private def w0 : Option K → F × Val
  | some k => (.ctx, mk k [])
  | none => (.ctx, mk .Load [])
private def n0 (s : String) : Option K → Val
  | some k => mk .Name [(.id, .str s), (.ctx, mk k [])]
  | none => mk .Name [(.id, .str s)]
example : fixCtx (prog n0 w0 none none none) = .ok (prog n0 w0 (some .Store) (some .Del) (some .Load)) := by
  decide
example : (prog n0 w0 none none none).isTree = true := by decide
example : fixCtx (mk .Delete []) = .error .attributeError := by decide
example : TargetsOk (prog n0 w0 none none none) := .of_valid (by decide)
example : TargetsOk (prog n0 w0 (some .Store) (some .Del) (some .Load)) ∧
    AllRight (prog n0 w0 (some .Store) (some .Del) (some .Load)) := ⟨.of_valid (by decide), .of_valid (by decide)⟩
end

end Mcpyrate
