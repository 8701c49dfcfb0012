import Verif.Text
import Verif.Rules
import Verif.Version
import Verif.Description
import Verif.Config
import Verif.Props.Config
import Verif.Props.Version
import Verif.Props.Description
import Verif.Props.Fix
import Verif.Props.Location
import Verif.Props.Directive
import Verif.Props.SuppressionEdit
import Verif.Props.Suppression
import Verif.Props.Rmd
import Verif.Props.Check
import Verif.Props.Comments
import Verif.Props.EndToEnd
import Verif.Props.LintFix
import Verif.Props.Schedule
import Verif.Props.Cli
import Verif.Props.Cfg
import Verif.Props.Lsp
import Verif.Props.LspSync
import Verif.Props.LspExclude
import Verif.Props.LspActions
import Verif.Props.LspServerFalse
import Verif.Props.Discovery
import Verif.Props.PackageScan
import Verif.Props.PackageDup
import Verif.Props.PackageStale
import Verif.Props.PackageSymbols
import Verif.Props.PackageUnusedFalse
import Verif.Props.RGrammar
import Verif.Props.RFixMain
import Verif.Props.RLawsFalse
import Verif.Props.RVisitMore
import Verif.Props.SprintfCall
import Verif.Props.RReportsFalse
import Verif.Props.RTogether
import Verif.Props.OutputSections
import Verif.Props.RFoundMain
import Verif.Props.RFoundExamples
import Verif.Props.RFoundFalse
import Verif.Props.RComments
import Verif.Props.RCommentsFalse
import Verif.Props.Toml
import Verif.Props.RText
import Verif.Props.RTextMain
import Verif.Props.RTextExamples
import Verif.Props.RTextFalse
import Verif.Props.RWeight
import Verif.Props.RWeightOps
import Verif.Props.RWeightRoom
import Verif.Props.REnds
import Verif.Props.WalkFalse
import Verif.Props.WalkEditor
import Verif.Run
import Verif.Spec.Run
import Verif.Props.RunPackage
import Verif.Props.RunWorld
import Verif.Props.RunOrder
import Verif.Props.RunVersion
import Verif.Props.RunExamples
import Verif.Props.RunEditor
import Verif.Props.RunEditorExamples
import Verif.RunFix
import Verif.Spec.RunFix
import Verif.Props.RunFix
import Verif.Props.RunRefused
import Verif.Props.RunFixExamples
import Verif.LspNotice
import Verif.Spec.LspNotice
import Verif.Props.LspNotice
import Verif.Place
import Verif.Spec.Place
import Verif.Lemmas.Regap
import Verif.Lemmas.Regrow
import Verif.Props.Place
import Verif.Props.PlaceMain
import Verif.IgnoreReport
import Verif.Spec.IgnoreReport
import Verif.Props.IgnoreReport
import Verif.Spec.RValue
import Verif.Lemmas.RValue
import Verif.Props.RValue
import Verif.Props.RValueOps
import Verif.Props.RValueCalls
import Verif.Props.RValueMore
import Verif.Props.RValueSort
import Verif.Props.RValueText
import Verif.Props.RValueMain
import Verif.Props.RValueFalse
import Verif.Spec.RAround
import Verif.Props.RAround
import Verif.Spec.RPasses
import Verif.Props.RPasses
import Verif.RCheck
import Verif.Spec.RCheck
import Verif.Props.RCheck
import Verif.Props.RCheckExamples
import Verif.Spec.Screen
import Verif.Props.Screen
import Verif.Spec.Documented
import Verif.Props.Documented
import Verif.Spec.UnusedHelp
import Verif.Props.UnusedHelp
import Verif.Spec.RRanges
import Verif.Props.RRanges
import Verif.Props.RRangesExamples
import Verif.Spec.RPass
import Verif.Props.RPass
