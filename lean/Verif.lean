import Verif.Props.Suppression
import Verif.Props.Refs
import Verif.Props.Merge
import Verif.Props.Config
import Verif.Props.Discovery
import Verif.Props.Collect
import Verif.Props.Loader
import Verif.Props.Validate
import Verif.Props.Engine
import Verif.Props.Violations
import Verif.Props.Api
import Verif.Props.Stdin
import Verif.Props.ApiCases
import Verif.Props.Paths
import Verif.Props.PathsCases
import Verif.Props.Capture
import Verif.Props.Cli
import Verif.Props.CliFix
import Verif.Props.CliFiles
import Verif.Props.CliCases
import Verif.Props.LspApart
import Verif.Props.LspFormat
import Verif.Props.LspCases
import Verif.Props.RulesIsinstanceCases
import Verif.Props.RulesIsinstanceShape
import Verif.Props.RulesCompare
import Verif.Props.RulesUnittest
import Verif.Props.Suite
import Verif.Props.CommandsCases
import Verif.Props.Visit
import Verif.Props.RulesSuper
import Verif.Props.RulesAsync
import Verif.Props.RulesQuoted
import Verif.Props.RulesAbc
import Verif.Props.RulesUpgrade
import Verif.Props.RulesTestCase
import Verif.Props.RulesTogether
import Verif.Props.RulesSorted
import Verif.Props.RulesObject
import Verif.Props.RulesClassStmt
import Verif.Props.RulesFString
import Verif.Props.RulesUseFstring
import Verif.Props.RulesCls
import Verif.Props.RulesExtra
import Verif.Spec.Converge
import Verif.Props.Converge
import Verif.Props.GoAway
import Verif.Model.Walk
import Verif.Spec.Walk
import Verif.Props.Walk
import Verif.Props.WalkCases
import Verif.Model.Subclass
import Verif.Props.Subclass
import Verif.Model.Formatters
import Verif.Props.Black
import Verif.Model.Pickle
import Verif.Props.Pickle
import Verif.Model.Pool
import Verif.Props.Pool
import Verif.Props.Stopping
import Verif.Props.Results
import Verif.Props.Report
import Verif.Model.Rules.Bundled
import Verif.Spec.Bundled
import Verif.Props.Bundled
import Verif.Props.BundledReports
import Verif.Props.BundledMain
import Verif.Props.BundledFixes
import Verif.Props.BundledSystem
import Verif.Props.BundledOnce
import Verif.Props.BundledCases
import Verif.Py.Repr
import Verif.Model.Messages
import Verif.Spec.Messages
import Verif.Proof.Repr
import Verif.Props.Messages
import Verif.Props.LspFormatAny
import Verif.Props.LspRequests
import Verif.Props.Basics
import Verif.Model.TestModule
import Verif.Props.TestModule
import Verif.Model.Serve
import Verif.Props.Serve
import Verif.Props.MessagesQuotes
import Verif.Model.ValidateText
import Verif.Props.ValidateText
import Verif.Model.Threads
import Verif.Props.Threads
import Verif.Props.TestingMessages
import Verif.Props.ApiErrors
import Verif.Props.LspFresh
import Verif.Props.Output
import Verif.Props.SysPath
import Verif.Props.StdinAsFile
import Verif.Props.StdinProgram
import Verif.Props.Agree
import Verif.Props.AgreeCases
import Verif.Props.YesToAll
import Verif.Props.YesCases
import Verif.Props.ConfigErrors
import Verif.Props.RuleOptions
import Verif.Props.RuleOptionsCases
import Verif.Props.Links
import Verif.Props.InTurn
import Verif.Props.ReorderedCases
import Verif.Props.LocalityCases
import Verif.Props.Moved
import Verif.Props.MovedCases
import Verif.Props.SameFile
import Verif.Props.SameFileCases
import Verif.Props.OneMore
import Verif.Props.OneMoreCases
import Verif.Props.TestPredicts
import Verif.Props.TestPredictsCases
import Verif.Props.CommentAdded
import Verif.Props.CommentAddedCases
import Verif.Props.OneEnabled
import Verif.Props.OneEnabledCases
import Verif.Props.Narrow
import Verif.Props.NarrowCases
import Verif.Spec.BundledMessages
import Verif.Props.BundledTexts
import Verif.Props.Interrupted
import Verif.Props.InterruptedCases
import Verif.Props.CleanLint
import Verif.Props.CleanLintCases
import Verif.Props.CleanStdin
import Verif.Props.SplitRun
import Verif.Props.Batches
import Verif.Props.SplitCases
import Verif.Props.BatchesEnd
import Verif.Props.SameFileEnd
import Verif.Props.OutputInteractive
import Verif.Props.LspFair
import Verif.Props.BatchesOverlap
import Verif.Props.OverlapCases
