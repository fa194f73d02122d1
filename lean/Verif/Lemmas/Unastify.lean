import Verif.Spec.Unastify
import Verif.Lemmas.Quotes
namespace Mcpyrate.Quotes
open Py
variable {σ : Type}

/-! ### Locations -/

theorem copyLocation_round (k : K) (l : Loc) :
    copyLocation (.py k) {} (.py .Call) (copyLocation (.py .Call) {} (.py k) l) = normLoc (.py k) l := by
  unfold copyLocation normLoc
  have h : Cls.hasLoc (.py .Call) = true := rfl
  by_cases hk : Cls.hasLoc (.py k) = true
  · simp only [h, hk, Bool.and_self, if_true]
    obtain ⟨a, b, c, d⟩ := l
    cases a <;> cases b <;> cases c <;> cases d <;> rfl
  · have hk' : Cls.hasLoc (.py k) = false := by simpa using hk
    simp [hk']

theorem normLoc_full {c : Cls} {l : Loc} (h : fullLoc c l = true) : normLoc c l = l := by
  unfold fullLoc at h
  unfold normLoc
  split at h
  · rename_i hc
    rw [if_pos hc]
    split at h <;> first | rfl | cases h
  · rename_i hc
    rw [if_neg hc]
    exact (beq_iff_eq.1 h).symm

mutual
theorem reloc_located (x : Obj) (h : located x = true) : reloc x = x := by
  match x with
  | .list xs => simp only [reloc, relocL_located xs h]
  | .tuple xs => simp only [reloc, relocL_located xs h]
  | .node (.py k) l fs =>
    simp only [located, Bool.and_eq_true] at h
    simp only [reloc, normLoc_full h.1, relocF_located fs h.2]
  | .node (.marker n) l fs =>
    simp only [located, Bool.and_eq_true, beq_iff_eq] at h
    simp only [reloc, h.1]
    by_cases hn : n = "Done"
    · rw [if_pos hn, relocF_located fs (by simpa [hn] using h.2)]
    · rw [if_neg hn]
  | .set xs => simp only [reloc, relocL_located xs h]
  | .dict ks vs =>
    simp only [located, Bool.and_eq_true] at h
    simp only [reloc, relocL_located ks h.1, relocL_located vs h.2]
  | .const _ | .ref _ | .ext _ => rfl
termination_by structural x
theorem relocL_located (xs : List Obj) (h : locatedL xs = true) : relocL xs = xs := by
  match xs with
  | [] => rfl
  | x :: xs =>
    simp only [locatedL, Bool.and_eq_true] at h
    simp only [relocL, reloc_located x h.1, relocL_located xs h.2]
termination_by structural xs
theorem relocF_located (fs : List (F × Obj)) (h : locatedF fs = true) : relocF fs = fs := by
  match fs with
  | [] => rfl
  | (f, x) :: r =>
    simp only [locatedF, Bool.and_eq_true] at h
    simp only [relocF, reloc_located x h.1, relocF_located r h.2]
termination_by structural fs
end

theorem relocF_names (fs : List (F × Obj)) : (relocF fs).map (·.1) = fs.map (·.1) := by
  induction fs with
  | nil => rfl
  | cons p fs ih => obtain ⟨f, x⟩ := p; simp only [relocF, List.map_cons, ih]

/-! ### Keyword arguments -/

theorem set_append_new (d : Dict String Obj) (k : String) (v : Obj) (h : k ∉ d.map (·.1)) :
    Dict.set d k v = d ++ [(k, v)] := by
  induction d with
  | nil => rfl
  | cons p d ih =>
    obtain ⟨a, b⟩ := p
    simp only [List.map_cons, List.mem_cons, not_or] at h
    simp only [Dict.set, List.cons_append]
    rw [if_neg (by simpa using fun e : a = k => h.1 e.symm), ih h.2]

theorem foldl_set (ps : List (String × Obj)) : ∀ (d : Dict String Obj), (d.map (·.1) ++ ps.map (·.1)).Nodup →
    ps.foldl (fun d p => Dict.set d p.1 p.2) d = d ++ ps := by
  induction ps with
  | nil => intro d _; simp
  | cons p ps ih =>
    intro d hd
    obtain ⟨a, b⟩ := p
    have h1 : a ∉ d.map (·.1) := by
      intro hm
      rw [List.nodup_append] at hd
      exact hd.2.2 a hm a (by simp) rfl
    rw [List.foldl_cons, set_append_new d a b h1, ih]
    · simp
    · simpa using hd

theorem toKwargs_ok (fs : List (F × Obj)) (h : (fs.map (·.1)).Nodup) :
    toKwargs (fs.map fun p => (.str p.1.text, p.2)) = .ok (fs.map fun p => (p.1.text, p.2)) := by
  unfold toKwargs
  have h1 : ∀ fs : List (F × Obj), ((fs.map fun p => ((.str p.1.text, p.2) : Obj × Obj)).mapM kwarg) =
      .ok (fs.map fun p => (p.1.text, p.2)) := by
    intro fs
    induction fs with
    | nil => rfl
    | cons p fs ih => rw [List.map_cons, List.mapM_cons, ih]; rfl
  rw [h1]
  show Except.ok _ = _
  rw [foldl_set _ [] (by
    have : (fs.map fun p => (p.1.text, p.2)).map (·.1) = (fs.map (·.1)).map F.text := by simp
    rw [this]
    simpa using nodup_map_text h)]
  rfl

/-! ### Calls -/

theorem unastify_general (H : Host σ) (l : Loc) (f : Obj) (as ks : List Obj) (p : List String)
    (hd : dotted f [] = some p) (h1 : p ≠ ["mcpyrate", "quotes", "splice_ast_literals"])
    (h2 : ∀ n, p = ["mcpyrate", "quotes", n] →
      uncall H n [(.func, f), (.args, .list as), (.keywords, .list ks)] = none) :
    unastify H (.node (.py .Call) l [(.func, f), (.args, .list as), (.keywords, .list ks)]) = (do
      let callee ← lookupThing H (some p)
      let args ← unastifyL H as
      let kws ← unastifyPairs H ks
      let node ← call H callee args (← lift (toKwargs kws))
      lift (relocate node (.py .Call) l)) := by
  have e : unastify H (.node (.py .Call) l [(.func, f), (.args, .list as), (.keywords, .list ks)]) =
      (if dotted f [] = some ["mcpyrate", "quotes", "splice_ast_literals"] then
          unastifyArg H [(.func, f), (.args, .list as), (.keywords, .list ks)]
        else
          match (match dotted f [] with
            | some ["mcpyrate", "quotes", n] => uncall H n [(.func, f), (.args, .list as), (.keywords, .list ks)]
            | _ => none) with
          | some m => m
          | none => do
            let callee ← lookupThing H (dotted f [])
            let args ← unastifyL H as
            let kws ← unastifyPairs H ks
            let node ← call H callee args (← lift (toKwargs kws))
            lift (relocate node (.py .Call) l)) := rfl
  rw [e, hd, if_neg (by simpa using h1)]
  have h3 : (match (some p : Option (List String)) with
      | some ["mcpyrate", "quotes", n] => uncall H n [(.func, f), (.args, .list as), (.keywords, .list ks)]
      | _ => none) = none := by
    split
    · rename_i n e
      exact h2 n (by simpa using e)
    · rfl
  rw [h3]

theorem unastify_uncall (H : Host σ) (l : Loc) (fn : String) (fs : List (F × Obj)) (m : Q σ Obj)
    (hfn : fn ≠ "splice_ast_literals") (h : uncall H fn ((.func, quotesAttr fn) :: fs) = some m) :
    unastify H (.node (.py .Call) l ((.func, quotesAttr fn) :: fs)) = m := by
  have hd : dotted (quotesAttr fn) [] = some ["mcpyrate", "quotes", fn] := rfl
  have e : unastify H (.node (.py .Call) l ((.func, quotesAttr fn) :: fs)) =
      (if dotted (quotesAttr fn) [] = some ["mcpyrate", "quotes", "splice_ast_literals"] then
          unastifyArg H ((.func, quotesAttr fn) :: fs)
        else
          match (match dotted (quotesAttr fn) [] with
            | some ["mcpyrate", "quotes", n] => uncall H n ((.func, quotesAttr fn) :: fs)
            | _ => none) with
          | some m => m
          | none => do
            let callee ← lookupThing H (dotted (quotesAttr fn) [])
            let args ← unastifyListAt H .args ((.func, quotesAttr fn) :: fs)
            let kws ← unastifyPairsAt H ((.func, quotesAttr fn) :: fs)
            let node ← call H callee args (← lift (toKwargs kws))
            lift (relocate node (.py .Call) l)) := rfl
  rw [e, hd, if_neg (by simpa using hfn)]
  show (match uncall H fn ((.func, quotesAttr fn) :: fs) with | some m => m | none => _) = m
  rw [h]

theorem lookupThing_class (H : Host σ) (k : K) :
    lookupThing H (some ["mcpyrate", "quotes", "ast", k.text]) = pure (.ref ["mcpyrate", "quotes", "ast", k.text]) := by
  have e : lookupThing H (some ["mcpyrate", "quotes", "ast", k.text]) =
      getAttrs H (.ref ["mcpyrate", "quotes", "ast"]) [k.text] := by
    rw [lookupThing, if_pos (by decide), if_pos (by decide)]
  rw [e]
  show ((if (K.ofText k.text).isSome then _ else _) >>= fun x => getAttrs H x []) = _
  rw [K.ofText_text]
  rfl

theorem lookupThing_done (H : Host σ) :
    lookupThing H (some ["mcpyrate", "quotes", "Done"]) = pure (.ref ["mcpyrate", "quotes", "Done"]) := by
  rw [lookupThing, if_pos (by decide), if_pos (by decide)]
  rfl

theorem runPairs_pure (xs ys : List Obj) (h : xs.length = ys.length) :
    runPairs (xs.map (pure : Obj → Q σ Obj)) (ys.map pure) = pure ((xs.map some).zip ys) := by
  induction xs generalizing ys with
  | nil => cases ys with
    | nil => rfl
    | cons => cases h
  | cons x xs ih =>
    cases ys with
    | nil => cases h
    | cons y ys =>
      simp only [List.map_cons, runPairs, M.pure_bind', ih ys (by simpa using h), List.zip_cons_cons]

theorem relocL_length (xs : List Obj) : (relocL xs).length = xs.length := by
  induction xs with
  | nil => rfl
  | cons x xs ih => simp [relocL, ih]

mutual
theorem uncompile (H : Host σ) (E : Option (String → Option Obj)) (t : Obj) (ht : template E t = true)
    (hs : Rebuilt H t) : ∃ code, astify H E t = pure code ∧ unastify H code = pure (reloc t) := by
  match t with
  | .const c =>
    cases c <;> first
      | exact ⟨_, rfl, rfl⟩
      | (exact absurd ht (by simp [template, isComplex]))
  | .list xs =>
    obtain ⟨cs, h1, h2, -⟩ := uncompileL H E xs (by simpa [template] using ht) hs
    refine ⟨listNode cs, by simp only [astify, h1]; rfl, ?_⟩
    show (do return Obj.list (← unastifyL H cs)) = _
    rw [h2, reloc]
    rfl
  | .tuple xs =>
    obtain ⟨cs, h1, h2, -⟩ := uncompileL H E xs (by simpa [template] using ht) hs
    refine ⟨tupleNode cs, by simp only [astify, h1]; rfl, ?_⟩
    show (do return Obj.tuple (← unastifyL H cs)) = _
    rw [h2, reloc]
    rfl
  | .set xs =>
    simp only [Rebuilt] at hs
    obtain ⟨cs, h1, h2, -⟩ := uncompileL H E xs (by simpa [template] using ht) hs.1
    refine ⟨setNode cs, by simp only [astify, h1]; rfl, ?_⟩
    show (do lift (H.mkSet (← unastifyL H cs))) = _
    rw [h2, M.pure_bind', hs.2, reloc]
    rfl
  | .dict ks vs =>
    simp only [Rebuilt] at hs
    simp only [template, Bool.and_eq_true] at ht
    obtain ⟨cs, h1, -, h2⟩ := uncompileL H E ks ht.1 hs.1
    obtain ⟨ds, h3, -, h4⟩ := uncompileL H E vs ht.2 hs.2.1
    refine ⟨dictNode cs ds, by simp only [astify, h1, h3]; rfl, ?_⟩
    show (do lift (H.mkDict (← runPairs (unastifyActsL H cs) (unastifyActsL H ds)))) = _
    rw [h2, h4, runPairs_pure _ _ (by rw [relocL_length, relocL_length, hs.2.2.1]), M.pure_bind', hs.2.2.2, reloc]
    rfl
  | .node (.py k) l fs =>
    simp only [template, Bool.and_eq_true] at ht
    obtain ⟨kws, h1, h2⟩ := uncompileF H E fs ht.2 hs
    refine ⟨.node (.py .Call) (copyLocation (.py .Call) {} (.py k) l)
      [(.func, attributeNode (quotesAttr "ast") k.text), (.args, .list []), (.keywords, .list kws)],
      by simp only [astify, h1]; rfl, ?_⟩
    have hshape : shaped k (relocF fs) = true := by rw [shaped_congr (relocF_names fs)]; exact ht.1
    have hnd : ((relocF fs).map (·.1)).Nodup := by
      unfold shaped at hshape
      rw [Bool.and_eq_true] at hshape
      exact (List.isSublist_iff_sublist.1 hshape.1).nodup k.nodup_fields
    rw [unastify_general H _ _ _ _ ["mcpyrate", "quotes", "ast", k.text] rfl (by simp) (by simp),
      lookupThing_class, M.pure_bind', h2]
    show (do
      let node ← call H _ [] (← lift (toKwargs ((relocF fs).map fun (p : F × Obj) => (.str p.1.text, p.2))))
      lift (relocate node (.py .Call) _)) = _
    rw [toKwargs_ok _ hnd]
    show (call H _ [] ((relocF fs).map fun p => (p.1.text, p.2)) >>= fun node => _) = _
    rw [call_class H hshape, M.pure_bind']
    show (pure (Obj.node (.py k) (copyLocation (.py k) {} (.py .Call) (copyLocation (.py .Call) {} (.py k) l))
      (relocF fs)) : Q σ Obj) = _
    rw [copyLocation_round, reloc]
  | .node (.marker n) l fs =>
    simp only [template] at ht
    by_cases hd : n = "Done"
    · subst hd
      simp only [if_true, Bool.and_eq_true, beq_iff_eq] at ht
      obtain ⟨kws, h1, h2⟩ := uncompileF H E fs ht.2 (hs rfl)
      refine ⟨callNode (quotesAttr "Done") [] kws, by simp [astify, h1], ?_⟩
      match fs, ht.1, h2 with
      | [(f, x)], hn, h2 =>
        simp only [List.map_cons, List.map_nil, List.cons.injEq, and_true] at hn
        subst hn
        rw [callNode, mkNode, unastify_general H _ _ _ _ ["mcpyrate", "quotes", "Done"] rfl (by simp) (by
            intro n hn
            simp only [List.cons.injEq, and_true, true_and] at hn
            subst hn
            rfl), lookupThing_done, M.pure_bind', h2]
        show (do
          let node ← call H (.ref ["mcpyrate", "quotes", "Done"]) [] (← lift (toKwargs ((relocF [(.body, x)]).map fun (p : F × Obj) => (.str p.1.text, p.2))))
          lift (relocate node (.py .Call) {})) = _
        rw [toKwargs_ok _ (by simp [relocF])]
        show (call H (.ref ["mcpyrate", "quotes", "Done"]) [] [("body", reloc x)] >>= fun node => _) = _
        rw [call_done]
        rfl
    · rw [if_neg hd] at ht
      have hr : reloc (.node (.marker n) l fs) = .node (.marker n) {} fs := by simp only [reloc, if_neg hd]
      rw [hr]
      split at ht
      · rename_i e
        simp only [Bool.and_eq_true, Bool.or_eq_true, decide_eq_true_eq, Bool.not_eq_true'] at ht
        obtain ⟨(rfl | rfl) | rfl, he⟩ := ht
        · exact ⟨_, rfl, unastify_uncall H _ "astify" _ _ (by decide) rfl⟩
        · exact ⟨_, rfl, unastify_uncall H _ "ast_list" _ _ (by decide) rfl⟩
        · exact ⟨_, rfl, unastify_uncall H _ "ast_tuple" _ _ (by decide) rfl⟩
      · rename_i e c
        simp only [Bool.and_eq_true, decide_eq_true_eq, Bool.not_eq_true'] at ht
        obtain ⟨rfl, he⟩ := ht
        exact ⟨_, rfl, unastify_uncall H _ "lift_sourcecode" _ _ (by decide) rfl⟩
      · rename_i e c
        simp only [Bool.and_eq_true, decide_eq_true_eq, Bool.not_eq_true'] at ht
        obtain ⟨rfl, he⟩ := ht
        exact ⟨_, rfl, unastify_uncall H _ "ast_literal" _ _ (by decide) rfl⟩
      · rename_i e c
        simp only [Bool.and_eq_true, decide_eq_true_eq, Bool.not_eq_true', Option.isNone_iff_eq_none] at ht
        obtain ⟨⟨rfl, he⟩, hc⟩ := ht
        refine ⟨callNode (quotesAttr "capture_value") [e, constantNode c] [], ?_,
          unastify_uncall H _ "capture_value" _ _ (by decide) rfl⟩
        show (match captured E e with | some (f, name) => captureMacro H f name | none => _) = _
        rw [hc]
        rfl
      · simp at ht
  | .ref p => simp [template] at ht
  | .ext n => simp [template] at ht
termination_by structural t
theorem uncompileL (H : Host σ) (E : Option (String → Option Obj)) (ts : List Obj) (ht : templateL E ts = true)
    (hs : RebuiltL H ts) : ∃ cs, astifyL H E ts = pure cs ∧ unastifyL H cs = pure (relocL ts) ∧
      unastifyActsL H cs = (relocL ts).map pure := by
  match ts with
  | [] => exact ⟨[], rfl, rfl, rfl⟩
  | t :: ts =>
    simp only [templateL, Bool.and_eq_true] at ht
    simp only [RebuiltL] at hs
    obtain ⟨c, h1, h2⟩ := uncompile H E t ht.1 hs.1
    obtain ⟨cs, h3, h4, h5⟩ := uncompileL H E ts ht.2 hs.2
    refine ⟨c :: cs, by simp only [astifyL, h1, h3]; rfl, ?_, ?_⟩
    · simp only [unastifyL, h2, h4, M.pure_bind', relocL]
    · simp only [unastifyActsL, h2, h5, relocL, List.map_cons]
termination_by structural ts
theorem uncompileF (H : Host σ) (E : Option (String → Option Obj)) (fs : List (F × Obj)) (ht : templateF E fs = true)
    (hs : RebuiltF H fs) : ∃ cs, astifyF H E fs = pure cs ∧
      unastifyPairs H cs = pure ((relocF fs).map fun p => (.str p.1.text, p.2)) := by
  match fs with
  | [] => exact ⟨[], rfl, rfl⟩
  | (f, t) :: fs =>
    simp only [templateF, Bool.and_eq_true] at ht
    simp only [RebuiltF] at hs
    obtain ⟨c, h1, h2⟩ := uncompile H E t ht.1 hs.1
    obtain ⟨cs, h3, h4⟩ := uncompileF H E fs ht.2 hs.2
    refine ⟨keywordNode f c :: cs, by simp only [astifyF, h1, h3]; rfl, ?_⟩
    have e : unastifyPairs H (keywordNode f c :: cs) = (do
      let v ← unastify H c
      return (.str f.text, v) :: (← unastifyPairs H cs)) := rfl
    rw [e, h2, M.pure_bind', h4, M.pure_bind', relocF]
    rfl
termination_by structural fs
end

mutual
theorem parsed_rebuilt (H : Host σ) (x : Obj) (h : parsed x = true) : Rebuilt H x := by
  match x with
  | .const _ => exact trivial
  | .list xs => exact parsedL_rebuilt H xs h
  | .node (.py k) l fs =>
    simp only [parsed, Bool.and_eq_true] at h
    exact parsedF_rebuilt H fs h.2
  | .node (.marker _) .. | .tuple _ | .set _ | .dict .. | .ref _ | .ext _ => simp [parsed] at h
termination_by structural x
theorem parsedL_rebuilt (H : Host σ) (xs : List Obj) (h : parsedL xs = true) : RebuiltL H xs := by
  match xs with
  | [] => exact trivial
  | x :: xs =>
    simp only [parsedL, Bool.and_eq_true] at h
    exact ⟨parsed_rebuilt H x h.1, parsedL_rebuilt H xs h.2⟩
termination_by structural xs
theorem parsedF_rebuilt (H : Host σ) (fs : List (F × Obj)) (h : parsedF fs = true) : RebuiltF H fs := by
  match fs with
  | [] => exact trivial
  | (f, x) :: r =>
    simp only [parsedF, Bool.and_eq_true] at h
    exact ⟨parsed_rebuilt H x h.1, parsedF_rebuilt H r h.2⟩
termination_by structural fs
end

theorem unastify_splice (H : Host σ) (x : Obj) (xs ks : List Obj) :
    unastify H (callNode (quotesAttr "splice_ast_literals") (x :: xs) ks) = unastify H x := by
  rfl

theorem lookupThing_foreign (H : Host σ) {p : Option (List String)}
    (h : ∀ q, p = some q → q.head? ≠ some "mcpyrate") : lookupThing H p = M.throw .notImplementedError := by
  unfold lookupThing
  split
  · exact absurd rfl (h _ rfl)
  · rfl

theorem unastify_foreign (H : Host σ) (l : Loc) (f : Obj) (fs : List (F × Obj))
    (h : ∀ p, dotted f [] = some p → p.head? ≠ some "mcpyrate") :
    unastify H (.node (.py .Call) l ((.func, f) :: fs)) = M.throw .notImplementedError := by
  have e : unastify H (.node (.py .Call) l ((.func, f) :: fs)) =
      (if dotted f [] = some ["mcpyrate", "quotes", "splice_ast_literals"] then
          unastifyArg H ((.func, f) :: fs)
        else
          match (match dotted f [] with
            | some ["mcpyrate", "quotes", n] => uncall H n ((.func, f) :: fs)
            | _ => none) with
          | some m => m
          | none => do
            let callee ← lookupThing H (dotted f [])
            let args ← unastifyListAt H .args ((.func, f) :: fs)
            let kws ← unastifyPairsAt H ((.func, f) :: fs)
            let node ← call H callee args (← lift (toKwargs kws))
            lift (relocate node (.py .Call) l)) := rfl
  rw [e, if_neg (fun e1 => h _ e1 rfl), lookupThing_foreign H h]
  have h3 : (match dotted f [] with
      | some ["mcpyrate", "quotes", n] => uncall H n ((.func, f) :: fs)
      | _ => none) = none := by
    split
    · rename_i n e1
      exact absurd rfl (h _ e1)
    · rfl
  rw [h3]
  rfl

theorem bind_ok' {ε σ α β : Type} {m : M ε σ α} {f : α → M ε σ β} {s s' : σ} {b : β}
    (h : (m >>= f) s = some (.ok b, s')) : ∃ a s1, m s = some (.ok a, s1) ∧ f a s1 = some (.ok b, s') := by
  have h' : M.bind m f s = _ := h
  unfold M.bind at h'
  split at h'
  · cases h'
  · cases h'
  · rename_i a s1 e; exact ⟨a, s1, e, h'⟩

/-- A call of a node class with positional arguments. -/
def isPositional : Obj → Bool
  | .node (.py .Call) _ [(.func, f), (.args, .list (_ :: _)), _] =>
    f == attributeNode (quotesAttr "ast") "Name"
  | _ => false

theorem quotesAttr_ne (fn : String) : (quotesAttr fn == attributeNode (quotesAttr "ast") "Name") = false := by
  rw [beq_eq_false_iff_ne]
  intro h
  unfold quotesAttr attributeNode mkNode at h
  simp only [Obj.node.injEq, List.cons.injEq, Prod.mk.injEq, true_and, and_true, reduceCtorEq, false_and] at h
  have := h.1.1
  simp [nameNode, mkNode] at this

theorem isPositional_callNode (fn : String) (as ks : List Obj) :
    isPositional (callNode (quotesAttr fn) as ks) = false := by
  cases as with
  | nil => rfl
  | cons a as => exact quotesAttr_ne fn

theorem astify_not_positional (H : Host σ) (E : Option (String → Option Obj)) (t : Obj) (s s' : St σ) (code : Obj)
    (h : astify H E t s = some (.ok code, s')) : isPositional code ≠ true := by
  rw [ne_eq, Bool.not_eq_true]
  cases t with
  | const c => cases c <;> cases h <;> rfl
  | list xs =>
    rw [astify] at h
    obtain ⟨a, s1, -, h2⟩ := bind_ok' h
    cases h2; rfl
  | tuple xs =>
    rw [astify] at h
    obtain ⟨a, s1, -, h2⟩ := bind_ok' h
    cases h2; rfl
  | set xs =>
    rw [astify] at h
    obtain ⟨a, s1, -, h2⟩ := bind_ok' h
    cases h2; rfl
  | dict ks vs =>
    rw [astify] at h
    obtain ⟨a, s1, -, h2⟩ := bind_ok' h
    obtain ⟨a, s1, -, h2⟩ := bind_ok' h2
    cases h2; rfl
  | ref p => cases h
  | ext n => cases h
  | node c l fs =>
    cases c with
    | py k =>
      rw [astify] at h
      obtain ⟨a, s1, -, h2⟩ := bind_ok' h
      cases h2; rfl
    | marker n =>
      rw [astify] at h
      split at h
      · obtain ⟨a, s1, -, h2⟩ := bind_ok' h
        cases h2; exact isPositional_callNode ..
      split at h
      · obtain ⟨a, s1, -, h2⟩ := bind_ok' h
        obtain ⟨b, s1, -, h3⟩ := bind_ok' h2
        split at h3
        · cases h3; exact isPositional_callNode ..
        · cases h3
      split at h
      · obtain ⟨a, s1, -, h2⟩ := bind_ok' h
        obtain ⟨b, s1, -, h3⟩ := bind_ok' h2
        split at h3
        · cases h3; exact isPositional_callNode ..
        · cases h3
      split at h
      · obtain ⟨a, s1, -, h2⟩ := bind_ok' h
        cases h2; exact isPositional_callNode ..
      split at h
      · obtain ⟨a, s1, -, h2⟩ := bind_ok' h
        cases h2; exact isPositional_callNode ..
      split at h
      · obtain ⟨a, s1, -, h2⟩ := bind_ok' h
        cases hc : captured E a with
        | some p =>
          obtain ⟨g, nm⟩ := p
          rw [hc] at h2
          change captureMacro H g nm s1 = _ at h2
          unfold captureMacro at h2
          split at h2
          · cases h2
          · obtain ⟨b, s1, -, h3⟩ := bind_ok' h2
            obtain ⟨b, s1, -, h4⟩ := bind_ok' h3
            cases h4; exact isPositional_callNode ..
        | none =>
          rw [hc] at h2
          obtain ⟨b, s1, -, h3⟩ := bind_ok' h2
          split at h3
          · cases h3; exact isPositional_callNode ..
          · cases h3
      split at h
      · obtain ⟨a, s1, -, h2⟩ := bind_ok' h
        cases h2; exact isPositional_callNode ..
      · cases h

end Mcpyrate.Quotes
