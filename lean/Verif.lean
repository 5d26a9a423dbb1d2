import Verif.Utf8
import Verif.Position
import Verif.PositionLemmas
import Verif.LineLemmas
import Verif.LinesSpan
import Verif.Stack
import Verif.Tracker
import Verif.Node
import Verif.Interp
import Verif.Logical
import Verif.Peg
import Verif.PegTree
import Verif.LeafLemmas
import Verif.Safety
import Verif.PegLemmas
import Verif.ParseLemmas
import Verif.Fuel
import Verif.LeafParse
import Verif.BuildLemmas
import Verif.Transfer
import Verif.Props.Text
import Verif.Matches
import Verif.EntryLemmas
import Verif.CombLemmas
import Verif.Props.Engine
import Verif.Props.Combinators
import Verif.Termination
import Verif.NeverFailed
import Verif.Shift
import Verif.Props.Termination
import Verif.Props.Locality
import Verif.Pairs
import Verif.PairLemmas
import Verif.Props.Tokens
import Verif.Trace
import Verif.TraceLemmas
import Verif.TraceRun
import Verif.Collect
import Verif.ReportLemmas
import Verif.TraceFacts
import Verif.CollectLemmas
import Verif.Summary
import Verif.MessageLemmas
import Verif.Props.Errors
import Verif.Formatter
import Verif.Snippet
import Verif.SnippetLemmas
import Verif.SnippetRun
import Verif.Props.Display
import Verif.Meta
import Verif.MetaSpec
import Verif.MetaLemmas
import Verif.Props.Literals
import Verif.Ast
import Verif.AstSpec
import Verif.AstLemmas
import Verif.Graph
import Verif.GraphSpec
import Verif.GraphLemmas
import Verif.ReachLemmas
import Verif.Codegen
import Verif.Props.Substitution
import Verif.Props.Boxing
import Verif.CodegenLemmas
import Verif.WrapperLemmas
import Verif.ModuleLemmas
import Verif.GrammarSpec
import Verif.Linkage
import Verif.ResolveLemmas
import Verif.TargetLemmas
import Verif.Props.Naming
import Verif.Compile
import Verif.Preserve
import Verif.Reflect
import Verif.GenComp
import Verif.GenLink
import Verif.LinkExists
import Verif.LinkGen
import Verif.Props.Generation
import Verif.Accessor
import Verif.AccessorSpec
import Verif.AccessorLemmas
import Verif.AccessorBuild
import Verif.Props.Accessors
import Verif.Props.Loading
import Verif.Props.Inlining
import Verif.Props.Messages
import Verif.Props.Scoping
import Verif.Props.Writing
import Verif.MetaExpr
import Verif.MetaExprSpec
import Verif.MetaExprLemmas
import Verif.MetaExprRead
import Verif.MetaExprFuel
import Verif.Props.Reading
import Verif.RuleEnum
import Verif.ForestSpec
import Verif.ForestLemmas
import Verif.NameLemmas
import Verif.Props.Forest
import Verif.Pest2
import Verif.MetaGrammar
import Verif.Pest2Rel
import Verif.Pest2Term
import Verif.MetaFile
import Verif.MetaFileSpec
import Verif.MetaInv
import Verif.MetaShape
import Verif.MetaExprTotal
import Verif.MetaFileShape
import Verif.MetaFileLemmas
import Verif.MetaNames
import Verif.ExprEq
import Verif.Props.Files
import Verif.SizeSpec
import Verif.SizeLemmas
import Verif.Props.Sizes
import Verif.NotationSpec
import Verif.Forward
import Verif.ForwardGap
import Verif.ForwardTok
import Verif.ForwardAt
import Verif.ForwardTerm
import Verif.ForwardExpr
import Verif.ForwardFile
import Verif.Props.Notation
import Verif.ShowExpr
import Verif.Props.Shown
import Verif.Items
import Verif.ItemLemmas
import Verif.Props.Closed
import Verif.Derive
import Verif.DeriveSpec
import Verif.DeriveLemmas
import Verif.Props.Deriving
import Verif.Idents
import Verif.IdentSpec
import Verif.IdentLemmas
import Verif.Props.Identifiers
import Verif.Rename
import Verif.Props.Expected
import Verif.DocComments
import Verif.DocTrees
import Verif.DocSpec
import Verif.SpaceInv
import Verif.DocInv
import Verif.DocLemmas
import Verif.Props.Documentation
import Verif.InlineNone
import Verif.Props.EndToEnd
import Verif.ShowPair
import Verif.Props.Printed
import Verif.Located
import Verif.LocatedErase
import Verif.LocatedSpec
import Verif.LocatedRel
import Verif.LocatedTok
import Verif.LocatedExpr
import Verif.LocatedNode
import Verif.LocatedFacts
import Verif.LocatedFile
import Verif.LocatedEq
import Verif.LocatedMono
import Verif.Props.Spans
import Verif.MeaningInv
import Verif.ShowsInv
import Verif.RewriteSpec
import Verif.RewriteLemmas
import Verif.RewriteLaws
import Verif.Props.Rewriting
import Verif.LeftSpec
import Verif.LeftLemmas
import Verif.Props.LeftRecursion
import Verif.AttemptSpec
import Verif.AttemptLemmas
import Verif.Props.GrammarErrors
import Verif.ThroughSpec
import Verif.ThroughLemmas
import Verif.ThroughScope
import Verif.Props.Transparent
import Verif.AccessorTypeSpec
import Verif.AccessorTypeLemmas
import Verif.Props.AccessorTypes
import Verif.MovedSpec
import Verif.MovedLemmas
import Verif.MovedCases
import Verif.Props.Moved
import Verif.FirstSpec
import Verif.FirstLemmas
import Verif.Props.First
import Verif.AheadSpec
import Verif.AheadLemmas
import Verif.Props.Ahead
import Verif.TriesInv
import Verif.EqualErrorSpec
import Verif.EqualErrorLemmas
import Verif.EqualErrorLaws
import Verif.Props.RewritingErrors
import Verif.AnswerSpec
import Verif.AnswerLemmas
import Verif.Props.Answering
import Verif.WorkSpec
import Verif.WorkLemmas
import Verif.CountRun
import Verif.Props.Work
import Verif.UnorderedSpec
import Verif.UnorderedLemmas
import Verif.FreeLemmas
import Verif.Props.Unordered
import Verif.Memchr
import Verif.MemchrLemmas
import Verif.Props.Memchr
import Verif.BlankSpec
import Verif.BlankLemmas
import Verif.Props.Blanks
import Verif.States
import Verif.StatesSpec
import Verif.StatesLemmas
import Verif.Props.States
import Verif.JsonExample
import Verif.JsonSpec
import Verif.JsonLemmas
import Verif.JsonLanguage
import Verif.FastRead
import Verif.JsonRead
import Verif.JsonWell
import Verif.Props.Json
import Verif.CalcExample
import Verif.CalcSpec
import Verif.CalcLemmas
import Verif.CalcLanguage
import Verif.CalcRead
import Verif.CalcWell
import Verif.Props.Calc
import Verif.CsvExample
import Verif.CsvSpec
import Verif.CsvLemmas
import Verif.CsvTable
import Verif.CsvRead
import Verif.CsvWell
import Verif.Props.Csv
import Verif.SkipExample
import Verif.SkipSpec
import Verif.SkipLemmas
import Verif.SkipRead
import Verif.SkipWell
import Verif.Props.Skip
import Verif.StackExample
import Verif.StackTexts
import Verif.StackRuns
import Verif.StackLang
import Verif.StackRead
import Verif.StackWell
import Verif.Props.StackTests
import Verif.OpTexts
import Verif.OpRuns
import Verif.Props.OpTests
import Verif.RecordExample
import Verif.RecordSpec
import Verif.RecordRead
import Verif.RecordRuns
import Verif.RecordShows
import Verif.RecordWell
import Verif.Props.Records
import Verif.SmallExample
import Verif.SmallRead
import Verif.SmallRuns
import Verif.Props.Small
import Verif.ImportExample
import Verif.ImportRead
import Verif.Props.Imported
import Verif.ModExample
import Verif.ModRead
import Verif.Props.Place
