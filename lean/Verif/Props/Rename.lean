import Verif.Lemmas.Rename
/-
C04 rename.

Full property: `rename(old, new, tree)` acts on every place of the AST that holds an identifier.
False of the code: it does not look at `MatchMapping.rest`, `MatchClass.kwd_attrs` and the names of
`TypeVar`, `ParamSpec`, `TypeVarTuple` (`C04_rename_violated`).  The theorems are for trees without
nodes of those classes.
-/
namespace Mcpyrate
open Py Rename

/-- C04: the result is the tree with the substitution applied to every identifier, and nothing else
changed. -/
theorem C04_rename_exact_partial (old new : String) (t t' : Val) (ht : t.isTree = true)
    (hs : Supported t) (h : rename old new t = .ok t') : t' = mapIdents (subst old new) t :=
  rename_eq ht hs h

/-- C04: the identifiers afterwards are the old ones with `new` for `old`; so `old` is gone. -/
theorem C04_rename_idents_partial (old new : String) (t t' : Val) (ht : t.isTree = true)
    (hs : Supported t) (h : rename old new t = .ok t') :
    idents t' = (idents t).map (fun s => if s = old then new else s) ∧
    (old ≠ new → old ∉ idents t') := by
  have hi : idents t' = (idents t).map (subst old new) := by rw [rename_eq ht hs h, idents_map]
  refine ⟨hi, fun hne hmem => ?_⟩
  rw [hi, List.mem_map] at hmem
  obtain ⟨s, _, hs⟩ := hmem
  simp only [subst] at hs
  split at hs
  · exact hne hs.symm
  · contradiction

/-- C04: nothing but identifiers changes: with all identifiers blanked out, the trees are equal. -/
theorem C04_rename_shape_partial (old new : String) (t t' : Val) (ht : t.isTree = true)
    (hs : Supported t) (h : rename old new t = .ok t') :
    mapIdents (fun _ => "") t' = mapIdents (fun _ => "") t := by
  rw [rename_eq ht hs h, mapIdents_comp]; rfl

/-- C04: a name that does not occur can be renamed without effect. -/
theorem C04_rename_absent_partial (old new : String) (t t' : Val) (ht : t.isTree = true)
    (hs : Supported t) (ha : old ∉ idents t) (h : rename old new t = .ok t') : t' = t := by
  rw [rename_eq ht hs h, mapIdents_congr _ id t, mapIdents_id]
  intro s hm
  simp only [subst]
  rw [if_neg (by rintro rfl; exact ha hm)]
  rfl

/-- C04: renaming `a` to `b` and then `b` to `c`, where `b` did not occur, is renaming `a` to `c`. -/
theorem C04_rename_compose_partial (a b c : String) (t t1 t2 t3 : Val) (ht : t.isTree = true)
    (hs : Supported t) (hb : b ∉ idents t)
    (h1 : rename a b t = .ok t1) (h2 : rename b c t1 = .ok t2) (h3 : rename a c t = .ok t3) :
    t2 = t3 := by
  have e1 := rename_eq ht hs h1
  rw [rename_eq (e1 ▸ isTree_map _ t ht) (e1 ▸ hs.map _) h2, e1, rename_eq ht hs h3, mapIdents_comp]
  refine mapIdents_congr _ _ t fun s hm => ?_
  have hsb : s ≠ b := fun e => hb (e ▸ hm)
  simp only [Function.comp, subst]
  split <;> simp_all

/-- C04: renaming back restores the tree, if the new name did not occur before. -/
theorem C04_rename_inverse_partial (a b : String) (t t1 t2 : Val) (ht : t.isTree = true)
    (hs : Supported t) (hb : b ∉ idents t)
    (h1 : rename a b t = .ok t1) (h2 : rename b a t1 = .ok t2) : t2 = t := by
  have e1 := rename_eq ht hs h1
  rw [rename_eq (e1 ▸ isTree_map _ t ht) (e1 ▸ hs.map _) h2, e1, mapIdents_comp, mapIdents_congr _ id t,
    mapIdents_id]
  intro s hm
  have hsb : s ≠ b := fun e => hb (e ▸ hm)
  simp only [Function.comp, subst, id]
  split <;> simp_all

/-- C04: `rename` succeeds on every tree whose identifier fields are there. -/
theorem C04_rename_succeeds (old new : String) (t : Val) (ht : t.isTree = true)
    (h : IdentFieldsOk t) : ∃ t', rename old new t = .ok t' :=
  walk_ok () t ht (step_ok old new t h)

/-- C04 fails: in `case {**x}: pass`, renaming `x` leaves the binding of `x` as it was; likewise the
attribute name in `case C(x=1)` and the type parameter in `type T[x] = x`. -/
theorem C04_rename_violated :
    (∃ t, t.isTree = true ∧ rename "x" "y" t = .ok t ∧ "x" ∈ idents t) ∧
    rename "x" "y" (mk .MatchMapping [(.keys, .list []), (.patterns, .list []), (.rest, .str "x")]) =
      .ok (mk .MatchMapping [(.keys, .list []), (.patterns, .list []), (.rest, .str "x")]) ∧
    rename "x" "y" (mk .MatchClass [(.cls, name "C"), (.patterns, .list []),
        (.kwd_attrs, .list [.str "x"]), (.kwd_patterns, .list [])]) =
      .ok (mk .MatchClass [(.cls, name "C"), (.patterns, .list []),
        (.kwd_attrs, .list [.str "x"]), (.kwd_patterns, .list [])]) ∧
    rename "x" "y" (mk .TypeVar [(.name, .str "x"), (.bound, .none)]) =
      .ok (mk .TypeVar [(.name, .str "x"), (.bound, .none)]) := by
  refine ⟨⟨mk .MatchMapping [(.keys, .list []), (.patterns, .list []), (.rest, .str "x")], ?_⟩, ?_⟩
    <;> decide

/-! Concrete case: `def x(x, *, k=x): global x; import x as z; x.x`. -/
section
private def fn (x : String) : Val :=
  mk .FunctionDef [(.name, .str x),
    (.args, mk .arguments [(.posonlyargs, .list []), (.args, .list [mk .arg [(.arg, .str x),
      (.annotation, .none), (.type_comment, .none)]]), (.vararg, .none), (.kwonlyargs, .list []),
      (.kw_defaults, .list []), (.kwarg, .none), (.defaults, .list [name x])]),
    (.body, .list [mk .Global [(.names, .list [.str x, .str "w"])],
      mk .Import [(.names, .list [mk .alias [(.name, .str x), (.asname, .str "z")]])],
      exprStmt (mk .Attribute [(.value, name x), (.attr, .str x), (.ctx, mk .Load [])]),
      exprStmt (constant (.str "x"))]),
    (.decorator_list, .list [])]
example : (fn "x").isTree = true ∧ rename "x" "y" (fn "x") = .ok (fn "y") := by decide
example : Supported (fn "x") := .of_all (by decide)
example : "y" ∉ idents (fn "x") ∧ (idents (fn "x")).length = 9 := by decide
example : rename "x" "y" (mk .Name []) = .error .attributeError := by decide
end

end Mcpyrate
