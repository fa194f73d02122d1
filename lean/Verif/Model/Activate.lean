/-
Model of mcpyrate/activate.py.
-/
namespace Mcpyrate.Activate

/-- Functions that can be hooks: those of the standard library, those of mcpyrate, and others. -/
inductive Hook where
  | stdlibSourceToCode | stdlibPathStats | sourceToXcode | pathXstats
  | other (n : Nat)
  deriving DecidableEq, Repr

/-- The interpreter: the attributes of the class `SourceFileLoader` itself, those it inherits, and the globals
`stdlib_source_to_code` and `stdlib_path_stats` of the module `mcpyrate.activate` (`none` before they are
assigned). -/
structure St where
  ownSourceToCode : Option Hook
  ownPathStats : Option Hook
  baseSourceToCode : Hook
  basePathStats : Hook
  savedSourceToCode : Option Hook
  savedPathStats : Option Hook
  deriving DecidableEq, Repr

/-- The hooks that are in effect: `SourceFileLoader.source_to_code` and `SourceFileLoader.path_stats`, by
Python's attribute lookup. -/
def St.sourceToCode (s : St) : Hook := s.ownSourceToCode.getD s.baseSourceToCode
def St.pathStats (s : St) : Hook := s.ownPathStats.getD s.basePathStats

/-- `activate()`, activate.py:34-48. -/
def activate (s : St) : St :=
  { s with ownSourceToCode := some .sourceToXcode, ownPathStats := some .pathXstats }

/-- `deactivate()`, activate.py:51-58.  It can only be called once the module has been loaded; a missing
global would be a NameError (here: no change). -/
def deactivate (s : St) : St :=
  match s.savedSourceToCode, s.savedPathStats with
  | some a, some b => { s with ownSourceToCode := some a, ownPathStats := some b }
  | _, _ => s

/-- Executing the module, activate.py:61-63: when it is first imported, and when it is reloaded. -/
def load (s : St) : St :=
  activate { s with savedSourceToCode := some s.sourceToCode, savedPathStats := some s.pathStats }

/-- A Python in which nothing has been patched: `source_to_code` is inherited from `SourceLoader`, and
`path_stats` is defined in `SourceFileLoader` (and, as an abstract method, in `SourceLoader`). -/
def pristine : St where
  ownSourceToCode := none
  ownPathStats := some .stdlibPathStats
  baseSourceToCode := .stdlibSourceToCode
  basePathStats := .other 0
  savedSourceToCode := none
  savedPathStats := none

inductive Call where
  | activate
  | deactivate
  | reload
  deriving DecidableEq, Repr

def step (s : St) : Call → St
  | .activate => activate s
  | .deactivate => deactivate s
  | .reload => load s

/-- Import the module, then make the calls. -/
def run (s : St) (calls : List Call) : St := calls.foldl step (load s)

end Mcpyrate.Activate
