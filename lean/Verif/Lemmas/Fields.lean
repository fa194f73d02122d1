import Verif.Py.Fields
namespace Mcpyrate.Py

theorem K.mem_all (k : K) : k ∈ K.all := by cases k <;> decide
theorem F.mem_all (f : F) : f ∈ F.all := by cases f <;> decide

theorem K.ofText_text (k : K) : K.ofText k.text = some k := by
  have h : (K.all.all fun k => K.ofText k.text == some k) = true := by decide +kernel
  simpa using List.all_eq_true.1 h k k.mem_all

theorem F.ofText_text (f : F) : F.ofText f.text = some f := by
  have h : (F.all.all fun k => F.ofText k.text == some k) = true := by decide +kernel
  simpa using List.all_eq_true.1 h f f.mem_all

end Mcpyrate.Py
