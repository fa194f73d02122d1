import Verif.Spec.ExprTree
import Verif.Model.Unparse
/-
For the examples of C47: a way of reading numbers, and an expression.
-/
namespace Mcpyrate.PyText
open Py

/-- Only ASCII in identifiers, and numbers are shown as they are written, with a fraction if they have none. -/
def asciiReading : Reading where
  identStart _ := false
  identCont _ := false
  float s := String.ofList (if s.all isDigit then s ++ ['.', '0'] else s)
  imag s := String.ofList (s ++ ['j'])

theorem asciiReading_lawful : asciiReading.Lawful where
  start_cont _ h := nomatch h
  noSpace _ h := nomatch h
  float s h := by
    refine .inl ?_
    obtain ⟨ds, fr, ex, rfl, hd, hf, he⟩ := h
    have key : ∀ s : Str, s.all isDigit = false → ¬ Integral s := fun s h h' =>
      Bool.false_ne_true (h.symm.trans (List.all_eq_true.2 h'))
    by_cases hs : (ds ++ fr ++ ex).all isDigit = true
    · have hn : ((ds ++ fr ++ ex) ++ ['.', '0']).all isDigit = false := by
        rw [List.all_append]; simp [isDigit]
      have hi : Digits (ds ++ fr ++ ex) :=
        ⟨fun e => hd.1 (List.append_eq_nil_iff.1 (List.append_eq_nil_iff.1 e).1).1, List.all_eq_true.1 hs⟩
      simp only [asciiReading, hs, if_true, String.toList_ofList, hn, Bool.false_eq_true, if_false, and_true]
      exact ⟨⟨ds ++ fr ++ ex, ['.', '0'], [], by simp, hi, .inr ⟨['0'], rfl, by simp [isDigit]⟩, .inl rfl⟩, key _ hn⟩
    · simp only [asciiReading, hs, String.toList_ofList, Bool.false_eq_true, if_false, and_true]
      exact ⟨⟨ds, fr, ex, rfl, hd, hf, he⟩, key _ (by simpa using hs)⟩
  imag s h := .inl ⟨s, by simp [asciiReading], h, rfl⟩

theorem isName_of {P : Reading} (s : String) {c : Char} {w : Str} (h : s.toList = c :: w) (hc : isLetter c = true) (hw : w.all isLetter = true)
    (hk : keyword? s = none) : IsName P s := by
  have hl : ∀ d, isLetter d = true → P.start d = true := fun d hd => by simp [Reading.start, hd]
  have hl' : ∀ d, isLetter d = true → P.cont d = true := fun d hd => by simp [Reading.cont, hd]
  refine ⟨⟨c, w, h, hl _ hc⟩, fun d hd => ?_, hk⟩
  rw [h] at hd
  rcases List.mem_cons.1 hd with rfl | hd
  · exact hl' _ hc
  · exact hl' _ (List.all_eq_true.1 hw d hd)

/-- `f(-1.5e+300, *a)[b:] ** (lambda x, /, y='q': x) if a else [b for (a, b) in f]`. -/
def exprExample : Val :=
  ifExp (binOp (subscript (mk .Call [(.func, name "f"), (.args, .list [unaryOp .USub (constant (.float "1.5e+300")), starred (name "a")]),
      (.keywords, .list [])]) (sliceOf (name "b") .none .none)) .Pow
      (lambda (argumentsTree [⟨"x", .none, .none⟩] [⟨"y", .none, constantU false "q"⟩] .none [] .none [constantU false "q"]) (name "x")))
    (name "a")
    (generator .ListComp (name "b") (.list [clause 0 (mk .Tuple [(.elts, .list [Py.name "a" .Store, Py.name "b" .Store]), (.ctx, mk .Store [])])
      (name "f") []]))

end Mcpyrate.PyText
