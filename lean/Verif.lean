import Verif.Props.Activate
import Verif.Props.Bindings
import Verif.Props.Bunch
import Verif.Props.CaptureHistory
import Verif.Props.CaptureLookup
import Verif.Props.Captures
import Verif.Props.Collector
import Verif.Props.Compiler
import Verif.Props.Console
import Verif.Props.Coverage
import Verif.Props.Declare
import Verif.Props.DialectSource
import Verif.Props.DialectSteps
import Verif.Props.Dialects
import Verif.Props.Dump
import Verif.Props.ExpandFirst
import Verif.Props.ExpandRuntime
import Verif.Props.ExpandStatic
import Verif.Props.Expander
import Verif.Props.ExpanderErrors
import Verif.Props.ExpanderOrder
import Verif.Props.ExpanderSyntax
import Verif.Props.FillLocation
import Verif.Props.FindMacros
import Verif.Props.FixCtx
import Verif.Props.FixCtxShared
import Verif.Props.FixLocations
import Verif.Props.Fixpoint
import Verif.Props.FutureImports
import Verif.Props.GetMacros
import Verif.Props.IConsole
import Verif.Props.ImportCode
import Verif.Props.Importer
import Verif.Props.Layers
import Verif.Props.LookupValue
import Verif.Props.Macropython
import Verif.Props.Markers
import Verif.Props.Modules
import Verif.Props.Multiphase
import Verif.Props.MultiphaseDebug
import Verif.Props.Outermost
import Verif.Props.Output
import Verif.Props.Paths
import Verif.Props.Postprocess
import Verif.Props.Pycache
import Verif.Props.Quasiquote
import Verif.Props.QuoteOps
import Verif.Props.Quotes
import Verif.Props.Rename
import Verif.Props.RunCode
import Verif.Props.SourceInfo
import Verif.Props.SpliceDialect
import Verif.Props.Splicing
import Verif.Props.StepExpansion
import Verif.Props.Stepr
import Verif.Props.Terminal
import Verif.Props.Unastify
import Verif.Props.Unparse
import Verif.Props.UnparseColor
import Verif.Props.UnparseMatch
import Verif.Props.UnparseSource
import Verif.Props.UnparseStmts
import Verif.Props.Utils
import Verif.Props.Walkers
import Verif.Axioms
