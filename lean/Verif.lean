import Verif.Conform
import Verif.Model.Analyzer
import Verif.Model.Ast
import Verif.Model.CheckCost
import Verif.Model.Cost
import Verif.Model.Debug
import Verif.Model.Depth
import Verif.Model.ErrorPos
import Verif.Model.Expected
import Verif.Model.F64
import Verif.Model.Grammar
import Verif.Model.Indexer
import Verif.Model.LineCol
import Verif.Model.Message
import Verif.Model.Parser
import Verif.Model.Peg
import Verif.Model.Render
import Verif.Model.Result
import Verif.Model.Str
import Verif.Proofs.Alike
import Verif.Proofs.Analyze
import Verif.Proofs.Appended
import Verif.Proofs.CheckCost1
import Verif.Proofs.CheckCost2
import Verif.Proofs.CheckCost3
import Verif.Proofs.CheckCost4
import Verif.Proofs.Columns
import Verif.Proofs.Core
import Verif.Proofs.Cost
import Verif.Proofs.Debug1
import Verif.Proofs.Debug2
import Verif.Proofs.Debug3
import Verif.Proofs.Debug4
import Verif.Proofs.Debug5
import Verif.Proofs.Depth
import Verif.Proofs.EnumNames
import Verif.Proofs.ErrorPos
import Verif.Proofs.Expected
import Verif.Proofs.ExpectedText
import Verif.Proofs.Extent
import Verif.Proofs.First
import Verif.Proofs.Float
import Verif.Proofs.Float2
import Verif.Proofs.FloatShow
import Verif.Proofs.FloatShow2
import Verif.Proofs.FloatShow3
import Verif.Proofs.Folds
import Verif.Proofs.Holes1
import Verif.Proofs.Holes2
import Verif.Proofs.Holes3
import Verif.Proofs.Holes4
import Verif.Proofs.Holes5
import Verif.Proofs.Index
import Verif.Proofs.Invert1
import Verif.Proofs.Invert2
import Verif.Proofs.Invert3
import Verif.Proofs.Invert4
import Verif.Proofs.Invert5
import Verif.Proofs.Kinds
import Verif.Proofs.Lex
import Verif.Proofs.LexRun
import Verif.Proofs.LineCol
import Verif.Proofs.Locate
import Verif.Proofs.Loop
import Verif.Proofs.MapSpanId
import Verif.Proofs.Natural
import Verif.Proofs.Nodes
import Verif.Proofs.OkDec
import Verif.Proofs.Optimizer
import Verif.Proofs.Outcome
import Verif.Proofs.PairCount
import Verif.Proofs.Parsed
import Verif.Proofs.Peg
import Verif.Proofs.Prefix
import Verif.Proofs.Print
import Verif.Proofs.Printable
import Verif.Proofs.Quadratic1
import Verif.Proofs.Quadratic2
import Verif.Proofs.Quadratic3
import Verif.Proofs.Quadratic4
import Verif.Proofs.Quadratic5
import Verif.Proofs.Quadratic6
import Verif.Proofs.Read
import Verif.Proofs.Reading1
import Verif.Proofs.Reading2
import Verif.Proofs.Reading3
import Verif.Proofs.Reading4
import Verif.Proofs.Reading5
import Verif.Proofs.Reading6
import Verif.Proofs.Reading7
import Verif.Proofs.Reading8
import Verif.Proofs.Recode
import Verif.Proofs.RecodeDoc
import Verif.Proofs.RecodeToks
import Verif.Proofs.Refs
import Verif.Proofs.RelabelWalk
import Verif.Proofs.Rename1
import Verif.Proofs.Rename10
import Verif.Proofs.Rename11
import Verif.Proofs.Rename2
import Verif.Proofs.Rename3
import Verif.Proofs.Rename4
import Verif.Proofs.Rename5
import Verif.Proofs.Rename6
import Verif.Proofs.Rename7
import Verif.Proofs.Rename8
import Verif.Proofs.Rename9
import Verif.Proofs.Render
import Verif.Proofs.Repair
import Verif.Proofs.Report1
import Verif.Proofs.Report2
import Verif.Proofs.Report3
import Verif.Proofs.Rewrite
import Verif.Proofs.RsLemmas
import Verif.Proofs.Shape
import Verif.Proofs.Shift
import Verif.Proofs.ShiftWalk
import Verif.Proofs.Size1
import Verif.Proofs.Size2
import Verif.Proofs.Skip
import Verif.Proofs.SkipExact
import Verif.Proofs.SkipTail
import Verif.Proofs.Slices
import Verif.Proofs.Spans
import Verif.Proofs.TableChecks
import Verif.Proofs.Tail
import Verif.Proofs.TailWalk
import Verif.Proofs.Tells
import Verif.Proofs.Term
import Verif.Proofs.Tokens
import Verif.Proofs.Trim
import Verif.Proofs.Truncate
import Verif.Proofs.Viable1
import Verif.Proofs.Viable10
import Verif.Proofs.Viable11
import Verif.Proofs.Viable12
import Verif.Proofs.Viable13
import Verif.Proofs.Viable2
import Verif.Proofs.Viable3
import Verif.Proofs.Viable4
import Verif.Proofs.Viable5
import Verif.Proofs.Viable6
import Verif.Proofs.Viable7
import Verif.Proofs.Viable8
import Verif.Proofs.Viable9
import Verif.Proofs.Walk
import Verif.Proofs.Walkers1
import Verif.Proofs.Walkers2
import Verif.Proofs.Walkers3
import Verif.Proofs.Walkers4
import Verif.Proofs.Walkers5
import Verif.Props.Appended
import Verif.Props.CheckCost
import Verif.Props.Core
import Verif.Props.Cost
import Verif.Props.Debug
import Verif.Props.Decimals
import Verif.Props.Depth
import Verif.Props.Editing
import Verif.Props.EnumNames
import Verif.Props.ErrorPos
import Verif.Props.Evolve
import Verif.Props.Example
import Verif.Props.Expected
import Verif.Props.Fits
import Verif.Props.Grow
import Verif.Props.Kinds
import Verif.Props.Language
import Verif.Props.LineCol
import Verif.Props.Literals
import Verif.Props.Members
import Verif.Props.Messages
import Verif.Props.Order
import Verif.Props.PairCount
import Verif.Props.Parsing
import Verif.Props.Positions
import Verif.Props.Print
import Verif.Props.Quoted
import Verif.Props.Recode
import Verif.Props.References
import Verif.Props.Rename
import Verif.Props.Render
import Verif.Props.Repair
import Verif.Props.Report
import Verif.Props.Rewrite
import Verif.Props.RoundTrip
import Verif.Props.Shape
import Verif.Props.Simple
import Verif.Props.Size
import Verif.Props.Splice
import Verif.Props.Stages
import Verif.Props.TableRefs
import Verif.Props.Trivia
import Verif.Props.Truncate
import Verif.Props.Validity
import Verif.Props.Values
import Verif.Props.Viable
import Verif.Spec.Alike
import Verif.Spec.Appended
import Verif.Spec.Checklist
import Verif.Spec.Core
import Verif.Spec.Debug
import Verif.Spec.Defects
import Verif.Spec.EnumNames
import Verif.Spec.Expected
import Verif.Spec.Float
import Verif.Spec.Kinds
import Verif.Spec.MapSpan
import Verif.Spec.Members
import Verif.Spec.Messages
import Verif.Spec.Nodes
import Verif.Spec.Numeral
import Verif.Spec.PairCount
import Verif.Spec.Print
import Verif.Spec.Recode
import Verif.Spec.Rename
import Verif.Spec.Render
import Verif.Spec.Repair
import Verif.Spec.Rewrite
import Verif.Spec.Shape
import Verif.Spec.Size
import Verif.Spec.Source
import Verif.Spec.Spans
import Verif.Spec.Splice
import Verif.Spec.Stages
import Verif.Spec.Syntax
import Verif.Spec.Truncate
import Verif.Spec.Valid
