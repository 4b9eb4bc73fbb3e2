import Verif.Model.Simulator
import Verif.Props.BitSet
import Verif.Props.SparseMap
import Verif.Props.GrammarIndex
import Verif.Props.First
import Verif.Proof.Table
import Verif.Props.Closure
import Verif.Props.Table
import Verif.Props.Parse
import Verif.Props.Knuth
import Verif.Props.StateMap
import Verif.Props.Generated
import Verif.Props.Agree
import Verif.Props.Overlap
import Verif.Props.GrammarText
import Verif.Props.Constructor
import Verif.Props.Symbols
import Verif.Props.GrammarSample
import Verif.Props.Conflict
import Verif.Props.Macro
import Verif.Props.Typing
import Verif.Props.Emit
import Verif.Props.Rust
import Verif.Props.Linear
import Verif.Props.Label
import Verif.Props.LL
import Verif.Props.Merged
import Verif.Props.Mistakes
import Verif.Props.Nesting
import Verif.Props.Repair
import Verif.Props.Frames
import Verif.Props.MacroEntry
import Verif.Props.Related
import Verif.Props.Grouping
import Verif.Props.RepairGen
import Verif.Props.Count
import Verif.Props.RustSyntax
import Verif.Spec.Patterns
import Verif.Proof.Patterns
import Verif.Props.Patterns
import Verif.Model.Display
import Verif.Spec.TableText
import Verif.Proof.Display
import Verif.Props.Display
import Verif.Props.Usage
import Verif.Spec.RustTypes
import Verif.Props.Types
import Verif.Props.TypesSample
import Verif.Spec.Naming
import Verif.Proof.Naming
import Verif.Proof.NamingMacro
import Verif.Props.Naming
import Verif.Props.NamingSample
import Verif.Spec.Results
import Verif.Spec.Order
import Verif.Proof.Order
import Verif.Proof.Results
import Verif.Props.Results
import Verif.Props.Order
import Verif.Props.OrderSample
import Verif.Spec.Check
import Verif.Proof.Check
import Verif.Props.Check
import Verif.Model.ErrorText
import Verif.Proof.ErrorText
import Verif.Props.ErrorText
import Verif.Model.Located
import Verif.Spec.Located
import Verif.Proof.LocatedErase
import Verif.Proof.LocatedPlace
import Verif.Proof.LocatedParse
import Verif.Proof.LocatedFile
import Verif.Proof.LocatedTokens
import Verif.Props.Located
import Verif.Model.LocatedGen
import Verif.Spec.LocatedGen
import Verif.Proof.LocatedRule
import Verif.Proof.LocatedGen
import Verif.Props.LocatedGen
import Verif.Spec.LocatedText
import Verif.Props.LocatedText
import Verif.Spec.Reproduce
import Verif.Proof.Reproduce
import Verif.Props.Reproduce
import Verif.Model.SymbolStream
import Verif.Spec.SymbolStream
import Verif.Proof.SymbolStream
import Verif.Props.SymbolStream
import Verif.Spec.Useful
import Verif.Proof.Useful
import Verif.Props.Useful
import Verif.Model.Feedback
import Verif.Spec.Feedback
import Verif.Proof.Walk
import Verif.Proof.Feedback
import Verif.Proof.FeedbackFacts
import Verif.Props.Feedback
import Verif.Spec.Extend
import Verif.Proof.Extend
import Verif.Props.Extend
import Verif.Tests.LrTable
import Verif.Tests.Text
import Verif.Tests.Macro
import Verif.Model.RuntimeText
import Verif.Props.RuntimeText
import Verif.Proof.RootExact
import Verif.Spec.Root
import Verif.Props.RootExact
import Verif.Spec.Ownership
import Verif.Proof.Ownership
import Verif.Props.Ownership
import Verif.Model.Derive
import Verif.Spec.Derive
import Verif.Props.Derive
import Verif.Spec.Sorted
import Verif.Proof.Sorted
import Verif.Props.Sorted
import Verif.Props.SortedFile
import Verif.Proof.Actions
import Verif.Props.Exact
import Verif.Props.Unchecked
import Verif.Model.DebugText
import Verif.Props.FixedMap
import Verif.Props.ItemText
import Verif.Props.RepairMore
import Verif.Props.RepairUse
import Verif.Props.Foreign
import Verif.Props.Dispatch
import Verif.Props.Forms
import Verif.Props.ListOf
import Verif.Props.ListFold
import Verif.Props.SepList
import Verif.Props.SepFold
import Verif.Props.RightList
import Verif.Props.RightFold
import Verif.Props.FoldRefuted
import Verif.Props.Optional
import Verif.Props.Brackets
import Verif.Props.BracketFold
import Verif.Props.OptionalFold
import Verif.Props.FoldRepaired
import Verif.Props.Prefixed
import Verif.Props.PrefixFold
import Verif.Props.Postfixed
import Verif.Props.PostfixFold
