import Verif.Model.Modules
/-
Specification of `create_module`.
-/
namespace Mcpyrate.Modules
open Py

/-- A dotted name of identifiers. -/
def IsDotted (P : Host) (name : Str) : Prop :=
  ∃ cs : List Str, cs ≠ [] ∧ name = GetMacros.joinDots cs ∧ ∀ c ∈ cs, P.isIdent c = true ∧ '.' ∉ c

/-- The name of the new module: the one given, or a unique one. -/
def Named (P : Host) (dottedName : Arg) (uuid name : Str) : Prop :=
  dottedName = .str name ∧ name ≠ [] ∧ IsDotted P name ∨
    dottedName = .none ∧ name = "dynamically_created_module_".toList ++ uuid

/-- The file name: the one given, or a description. -/
def Filed (dottedName filename : Arg) (uuid file : Str) : Prop :=
  filename = .str file ∧ file ≠ [] ∨
    filename = .none ∧ ((∃ n, dottedName = .str n ∧ file = "<dynamically created module '".toList ++ n ++ "'>".toList) ∨
      dottedName = .none ∧ file = "<dynamically created module ".toList ++ uuid ++ ">".toList)

/-- The parent package and the last component of a dotted name. -/
def IsChild (name package last : Str) : Prop := name = package ++ '.' :: last ∧ '.' ∉ last

/-- The state `s'` is `s` with the new module `m` registered like Python's importer does it. -/
structure Created (name file : Str) (updateParent : Bool) (s : Sys) (m : Nat) (s' : Sys) : Prop where
  /-- a new object -/
  fresh : m = s.next
  /-- in `sys.modules` under its name; no other entry is changed -/
  modules : ∀ k, s'.modules.get k = if k = name then some (.obj m) else s.modules.get k
  /-- its name -/
  named : (s'.attrs m).get "__name__".toList = some (.str name)
  /-- its package: the parent's name, or None for a top-level module -/
  package : (∀ p l, IsChild name p l → (s'.attrs m).get "__package__".toList = some (.str p)) ∧
    ('.' ∉ name → (s'.attrs m).get "__package__".toList = some .none)
  /-- its file, or a description -/
  file : (s'.attrs m).get "__file__".toList = some (.str file)
  /-- it is set as attribute of its parent (if wanted) -/
  parent : ∀ p l i, updateParent = true → IsChild name p l → s.modules.get p = some (.obj i) →
    (s'.attrs i).get l = some (.obj m)
  /-- no other attribute of another object is changed -/
  others : ∀ i a, i ≠ m → ¬ (updateParent = true ∧ ∃ p, IsChild name p a ∧ s.modules.get p = some (.obj i)) →
    (s'.attrs i).get a = (s.attrs i).get a

/-- The parent package, if the name has one, is there. -/
def HasParent (P : Host) (name : Str) (s : Sys) : Prop :=
  ∀ p l, IsChild name p l → ∃ x, s.modules.get p = some x ∧ P.bool x = true

/-- Every object registered exists. -/
def Sys.WF (s : Sys) : Prop :=
  s.modules.WF ∧ ∀ k i, s.modules.get k = some (.obj i) → i < s.next

/-- The same `sys.modules`, and the same attributes on the objects there were. -/
def SameModules (s s' : Sys) : Prop :=
  (∀ k, s'.modules.get k = s.modules.get k) ∧ ∀ i, i < s.next → ∀ a, (s'.attrs i).get a = (s.attrs i).get a

/-- The code that uses the module leaves its entry, the entry of its parent package and the attribute on
the parent alone. -/
structure Keeps (name : Str) (s1 s2 : Sys) : Prop where
  wf : s2.modules.WF ∧ ∀ i, (s2.attrs i).WF
  entry : s2.modules.get name = s1.modules.get name
  parent : ∀ p l, IsChild name p l → s2.modules.get p = s1.modules.get p
  attr : ∀ p l i, IsChild name p l → s1.modules.get p = some (.obj i) →
    (s2.attrs i).get l = (s1.attrs i).get l

/-- `s3` is `s2` without the module: neither in `sys.modules` nor (if it was set there) on the parent. -/
structure Removed (name : Str) (updateParent : Bool) (s2 s3 : Sys) : Prop where
  entry : s3.modules.get name = none
  modules : ∀ k, k ≠ name → s3.modules.get k = s2.modules.get k
  parent : ∀ p l i, updateParent = true → IsChild name p l → s2.modules.get p = some (.obj i) →
    (s3.attrs i).get l = none
  others : ∀ i a, ¬ (updateParent = true ∧ ∃ p, IsChild name p a ∧ s2.modules.get p = some (.obj i)) →
    (s3.attrs i).get a = (s2.attrs i).get a

end Mcpyrate.Modules
