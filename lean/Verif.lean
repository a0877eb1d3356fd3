import Verif.Chars
import Verif.AMap
import Verif.Identity
import Verif.IdentitySpec
import Verif.IdentityLemmas
import Verif.IdentityProps
import Verif.Urn
import Verif.UrnProps
import Verif.Tables
import Verif.TablesProps
import Verif.Values
import Verif.ValuesSpec
import Verif.ValuesLemmas
import Verif.ValuesProps
import Verif.Shapes
import Verif.Model
import Verif.KFold
import Verif.ModelSpec
import Verif.ModelLemmas
import Verif.MergeLemmas
import Verif.ModelProps
import Verif.MergeSpec
import Verif.MergeSame
import Verif.MergeOrder
import Verif.MergeProps
import Verif.ServiceProps
import Verif.Builder
import Verif.BuilderSpec
import Verif.BuilderLemmas
import Verif.BuilderModel
import Verif.BuilderProps
import Verif.BuilderConflicts
import Verif.BuilderApply
import Verif.Json
import Verif.JsonSpec
import Verif.JsonLemmas
import Verif.JsonShapes
import Verif.ModelEq
import Verif.JsonReader
import Verif.JsonReaderModel
import Verif.JsonPanic
import Verif.JsonProps
import Verif.Lines
import Verif.LinesSpec
import Verif.LinesLemmas
import Verif.LinesMem
import Verif.LinesProps
import Verif.LinesTells
import Verif.Actions
import Verif.ActionsSpec
import Verif.ActionsProps
import Verif.LintProps
import Verif.Visitor
import Verif.VisitorSpec
import Verif.VisitorProps
import Verif.Selector
import Verif.Query
import Verif.QueryProps
import Verif.Assembler
import Verif.AssemblerSpec
import Verif.AssemblerProps
import Verif.Peg
import Verif.PegLemmas
import Verif.PegTree
import Verif.SelectorParser
import Verif.Decimal
import Verif.SelectorSpec
import Verif.SelectorReads
import Verif.SelectorRoundTrip
import Verif.SelectorTree
import Verif.SelectorProps
import Verif.SelectorValues
import Verif.SelectorExact
import Verif.IdlGrammar
import Verif.Idl
import Verif.IdlWriter
import Verif.IdlPeg
import Verif.IdlReads
import Verif.IdlSpec
import Verif.IdlNodes
import Verif.IdlTraits
import Verif.IdlShapes
import Verif.IdlSections
import Verif.PegSound
import Verif.IdlWf
import Verif.IdlRoundTrip
import Verif.IdlReadSpec
import Verif.IdlImage
import Verif.IdlProps
import Verif.IdlPanic
import Verif.IdlApply
import Verif.IdlTexts
import Verif.IdlBlank
import Verif.IdlExamples
import Verif.TraitBuilders
import Verif.TraitBuildersProps
import Verif.ShapeBuilders
import Verif.ShapeBuildersProps
import Verif.ApiProgram
import Verif.ApiProgramProps
import Verif.ApiFinite
import Verif.IdlDocs
import Verif.IdlChars
import Verif.Rdf
import Verif.RdfSpec
import Verif.RdfLemmas
import Verif.RdfProps
import Verif.RdfContent
import Verif.RdfReader
import Verif.GraphML
import Verif.GraphMLSpec
import Verif.XmlLemmas
import Verif.GraphMLLemmas
import Verif.GraphMLTells
import Verif.GraphMLText
import Verif.GraphMLProps
import Verif.PlantUml
import Verif.PlantUmlSpec
import Verif.PlantUmlProps
import Verif.Describe
import Verif.DescribeSpec
import Verif.DescribeLemmas
import Verif.DescribeProps
import Verif.DescribeMore
import Verif.SelectorBuilders
import Verif.SelectorBuildersSpec
import Verif.SelectorBuildersProps
import Verif.SelectorBuildersText
import Verif.JsonWrites
import Verif.Commands
import Verif.CommandsSpec
import Verif.CommandsProps
import Verif.CommandsMore
import Verif.CommandsEnd
import Verif.CommandsMain
import Verif.ApiContent
import Verif.IdlLayoutSpec
import Verif.IdlLayoutValues
import Verif.IdlLayoutNodes
import Verif.IdlLayoutTraits
import Verif.IdlLayoutShapes
import Verif.IdlLayoutStatements
import Verif.IdlLayoutFiles
import Verif.IdlLayout
import Verif.IdlLooseSpec
import Verif.IdlLooseParses
import Verif.IdlLooseValues
import Verif.IdlLooseNodes
import Verif.IdlLooseTraits
import Verif.IdlLooseFields
import Verif.IdlLooseShapes
import Verif.IdlLooseFiles
import Verif.IdlLoose
import Verif.ModelExact
import Verif.MergeFail
import Verif.BuilderExact
import Verif.JsonExact
import Verif.BuilderApplyExact
import Verif.IdlExact
import Verif.JoinSpec
import Verif.JoinLemmas
import Verif.JoinProps
import Verif.JoinGroup
import Verif.JoinAssembly
import Verif.JoinCommands
import Verif.Editing
import Verif.EditingSpec
import Verif.EditingProps
import Verif.EditingModel
import Verif.LintMore
import Verif.JsonErrorsSpec
import Verif.JsonErrors
import Verif.BuilderErrors
import Verif.IdlErrors
import Verif.SettleJson
import Verif.SettleIdl
import Verif.SettleCross
import Verif.Messages
import Verif.MessagesProps
import Verif.PreludeProps
import Verif.Findings
import Verif.PegCount
import Verif.IdlFaultsSpec
import Verif.IdlFaults
import Verif.IdlFaultsValues
import Verif.IdlFaultsParts
import Verif.IdlFaultsStatements
import Verif.IdlFaultsObjects
import Verif.IdlFaultsProps
import Verif.RdfSame
import Verif.RdfTells
import Verif.JsonSame
import Verif.GraphMLSame
import Verif.IdlSame
import Verif.DescribeSame
import Verif.JsonOrder
import Verif.Pipeline
import Verif.PipelineParts
import Verif.CommandLine
import Verif.DescribeTells
import Verif.Targets
import Verif.TargetsProps
import Verif.Sources
import Verif.SourcesProps
import Verif.BuilderNames
import Verif.PlantUmlTells
import Verif.SelectorEdits
import Verif.SelectorEditsSpec
import Verif.SelectorEditsProps
import Verif.AssemblerAccess
import Verif.RepoTests
