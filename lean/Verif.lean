import Verif.Props.Tags
import Verif.Props.TeiLoad
import Verif.Props.TeiWrite
import Verif.Props.TeiDoc
import Verif.Props.PostAnnotators
import Verif.Props.Checks
import Verif.Props.FieldLists
import Verif.Props.FuzzyMatch
import Verif.Props.FuzzySearch
import Verif.Props.MatchingUtils
import Verif.Props.SimpleMatching
import Verif.Props.MatchingRanges
import Verif.Props.Segmentation
import Verif.Props.Reference
import Verif.Props.XmlFix
import Verif.Props.TargetText
import Verif.Props.TargetAnnotations
import Verif.Props.JatsText
import Verif.Props.JatsFix
import Verif.Props.Download
import Verif.Props.Pipeline
import Verif.Props.CoreMatching
import Verif.Props.Tools
import Verif.Props.ToolLabels
import Verif.Props.SegChecks
import Verif.Props.Fulltext
import Verif.Props.Justified
import Verif.Props.TagConfig
import Verif.Props.JatsDoc
import Verif.Props.JatsPool
import Verif.Props.CoreJustified
import Verif.Props.Reload
import Verif.Props.TargetFile
import Verif.Props.ToolPaths
import Verif.Props.ReloadTokens
import Verif.Props.SourceFiles
import Verif.Props.SaveAgain
import Verif.Props.JatsResult
import Verif.Props.FuzzyChunks
import Verif.Props.TargetTexts
import Verif.Props.ConfigFile
import Verif.Props.ShippedConfig
import Verif.Props.LocalFiles
import Verif.Props.SearchWindow
import Verif.Props.CoreLater
import Verif.Props.TagExpression
import Verif.Props.ShippedNames
import Verif.Props.SubKept
import Verif.Props.Removed
import Verif.Props.XPathMatches
import Verif.Props.ReloadSub
import Verif.Props.LiteralPlace
import Verif.Props.SubPlace
import Verif.Props.RunAgain
import Verif.Props.ToolRun
import Verif.Props.SetOrder
import Verif.Props.CommandLine
import Verif.Props.ManyPlaces
import Verif.Props.ReadBack
import Verif.Props.CliDefaults
import Verif.Props.ReloadFields
import Verif.Props.EndToEnd
import Verif.Props.MatchReport
import Verif.Props.ReplaceTags
import Verif.Props.WrittenText
import Verif.Props.ExactForms
import Verif.Props.JatsSucceeds
import Verif.Props.JatsRepairable
import Verif.Props.JatsClean
import Verif.Props.AltoText
import Verif.Props.AllPlaces
import Verif.Props.SegmentsBack
import Verif.Props.SegmentsRun
import Verif.Props.AllPlacesRun
import Verif.Props.RunChecks
import Verif.Props.OptionOrder
import Verif.Props.LineNumberAmong
import Verif.Props.PreservedSegments
import Verif.Props.SubReadBack
import Verif.Props.DownloadRun
import Verif.Props.Outside
import Verif.Props.JatsPatterns
import Verif.Props.JatsForms
import Verif.Props.JatsDoiPattern
import Verif.Props.ReferenceLabel
import Verif.Props.SmallPatterns
import Verif.Props.PrefixPatterns
import Verif.Props.MainKept
import Verif.Props.PrefixPlace
import Verif.Props.RegexAll
import Verif.Props.Spelling
import Verif.Props.SubPlaceRef
import Verif.Props.CoreChoices
import Verif.Props.SubElements
import Verif.Props.Container
import Verif.Props.FilePatterns
