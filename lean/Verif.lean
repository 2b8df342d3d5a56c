import Verif.Model.World
import Verif.Model.Reach
import Verif.Spec.History
import Verif.Spec.Trace
import Verif.Proofs.Refine
import Verif.Props.Limits
import Verif.Props.Outcome
import Verif.Props.Order
import Verif.Props.Selection
import Verif.Props.Skips
import Verif.Props.SequenceEnd
import Verif.Props.Safety
import Verif.Props.Building
import Verif.Props.Overloads
import Verif.Props.Mocks
import Verif.Props.Calls
import Verif.Props.Matchers
import Verif.Props.Policies
import Verif.Props.Watchers
import Verif.Props.WatcherProgress
import Verif.Props.WatchedProgress
import Verif.Props.WatchedObjects
import Verif.Props.WatchedTerminate
import Verif.Props.Scoped
import Verif.Props.Printing
import Verif.Props.Reports
import Verif.Props.Descriptions
import Verif.Props.Concurrent
import Verif.Props.InterfaceMock
import Verif.Props.Capture
import Verif.Props.CaptureProgress
import Verif.Props.Shorthand
import Verif.Props.Fragile
import Verif.Props.Select
import Verif.Props.TestRun
import Verif.Props.PrintCall
import Verif.Props.Nested
import Verif.Props.MockReports
import Verif.Props.Forward
import Verif.Props.CaseFold
import Verif.Props.Touch
import Verif.Props.Custom
import Verif.Props.Scopes
import Verif.Props.Inner
import Verif.Props.Own
import Verif.Props.Alike
import Verif.Props.Stringify
import Verif.Props.Parts
import Verif.Props.Reorder
import Verif.Props.Owned
import Verif.Conform.Sequence
import Verif.Conform.Control
import Verif.Conform.Examples
import Verif.Conform.Reports
import Verif.Conform.Compare
import Verif.Conform.Printer
import Verif.Conform.Expectation
import Verif.Conform.Matcher
import Verif.Conform.Mock
import Verif.Conform.Watcher
import Verif.Conform.TypeTraits
import Verif.Conform.InterfaceMock
import Verif.Conform.Policies
import Verif.Conform.Builder
import Verif.Conform.Reporter
import Verif.Conform.Adapters
import Verif.Conform.String
import Verif.Props.Threads
import Verif.Props.Unused
import Verif.Props.Language
import Verif.Props.Relax
import Verif.Props.Merge
import Verif.Props.Kinds
import Verif.Props.Ends
import Verif.Props.SequenceReport
import Verif.Props.Forbid
import Verif.Props.Contracts
import Verif.Props.Moves
import Verif.Props.Install
import Verif.Props.Again
import Verif.Props.Shared
import Verif.Props.Exchange
import Verif.Props.Loosen
import Verif.Props.Several
import Verif.Props.Compare
import Verif.Props.Memory
import Verif.Props.MemoryEnd
import Verif.Props.Answers
import Verif.Props.Lives
import Verif.Props.Groups
import Verif.Props.Ahead
import Verif.Props.Situation
import Verif.Props.Lenient
import Verif.Props.Split
import Verif.Props.Display
import Verif.Props.Tell
import Verif.Props.Assign
import Verif.Props.Choice
import Verif.Props.Declare
import Verif.Props.Address
import Verif.Props.Notify
import Verif.Props.Whole
import Verif.Props.Block
import Verif.Props.Foreign
import Verif.Props.Bystander
import Verif.Props.Redundant
import Verif.Props.Steady
import Verif.Props.Watchful
import Verif.Props.Combined
import Verif.Props.Scoping
import Verif.Props.Mocking
import Verif.Props.Builders
import Verif.Props.BuilderMoves
