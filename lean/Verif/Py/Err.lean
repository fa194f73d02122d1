/-
Exceptions raised by the modelled code, by class only (messages are not modelled, except in the
macro expander).
-/
namespace Mcpyrate.Py

inductive Err where
  | attributeError | typeError | valueError | keyError | indexError | syntaxError | importError
  | moduleNotFoundError | runtimeError | assertionError | nameError | recursionError
  | macroExpansionError | unparserError | osError | notImplementedError
  deriving DecidableEq, Repr

instance {ε α} [DecidableEq ε] [DecidableEq α] : DecidableEq (Except ε α)
  | .ok a, .ok b => if h : a = b then isTrue (by rw [h]) else isFalse (by simpa using h)
  | .error a, .error b => if h : a = b then isTrue (by rw [h]) else isFalse (by simpa using h)
  | .ok _, .error _ => isFalse (by simp)
  | .error _, .ok _ => isFalse (by simp)

end Mcpyrate.Py
