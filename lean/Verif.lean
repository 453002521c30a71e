import Verif.Json
import Verif.Names
import Verif.Schema
import Verif.Registry
import Verif.Serialize
import Verif.Import
import Verif.Defaults
import Verif.Lemmas.Json
import Verif.Lemmas.Names
import Verif.Spec.OnePass
import Verif.Lemmas.OnePass
import Verif.Lemmas.SerEvents

import Verif.Lemmas.SerFuel
import Verif.Spec.Flat
import Verif.Lemmas.Flat
import Verif.Lemmas.ProtocolEvents
import Verif.Props.Names
import Verif.Props.Output
import Verif.Spec.Default
import Verif.Lemmas.Defaults
import Verif.Lemmas.Registry
import Verif.Props.Defaults
import Verif.Spec.LegalName
import Verif.Lemmas.LegalName
import Verif.Props.Registry
import Verif.Literals
import Verif.Spec.Literal
import Verif.Lemmas.Literals
import Verif.Lemmas.Strings
import Verif.Props.Literals
import Verif.DocComments
import Verif.Ast
import Verif.Reader
import Verif.Spec.Doc
import Verif.Lemmas.Doc
import Verif.Props.Doc
import Verif.Lemmas.Reader
import Verif.Lemmas.ReaderNs
import Verif.Lemmas.ReaderDecls
import Verif.Spec.Reading
import Verif.Props.ReaderTypes
import Verif.Spec.Annotation
import Verif.Props.Annotations
import Verif.Spec.LogicalType
import Verif.Props.LogicalTypes
import Verif.Spec.Source
import Verif.Spec.DocPlaces
import Verif.Lemmas.ReaderMeans
import Verif.Lemmas.ReaderDocs
import Verif.Props.Source
import Verif.Compiler
import Verif.Spec.Compile
import Verif.Lemmas.Compile
import Verif.Lemmas.CompileTerm
import Verif.Lemmas.CompileFacts
import Verif.Props.Compile
import Verif.Props.CompileApi
import Verif.Spec.Hoist
import Verif.Lemmas.Hoist
import Verif.Props.Import
import Verif.Spec.Reorder
import Verif.Lemmas.Reorder
import Verif.Props.Order
import Verif.Cli
import Verif.Props.Cli
import Verif.Suggest
import Verif.Spec.Edit
import Verif.Lemmas.Suggest
import Verif.Props.Suggest
import Verif.Spans
import Verif.Props.Spans
import Verif.Spec.RoundTrip
import Verif.Lemmas.RoundTrip
import Verif.Lemmas.RoundTripSchema
import Verif.Lemmas.RoundTripProtocol
import Verif.Props.RoundTrip
import Verif.Spec.Coherent
import Verif.Lemmas.EndToEnd
import Verif.Props.EndToEnd
import Verif.LexerTables
import Verif.Lexer
import Verif.Parser
import Verif.Spec.Grammar
import Verif.Lemmas.ParserSound
import Verif.Lemmas.ParserComplete
import Verif.Props.Grammar
import Verif.Spec.Lexing
import Verif.Lemmas.Lexing
import Verif.Spec.Layout
import Verif.Lemmas.Layout
import Verif.Lemmas.LayoutText
import Verif.Props.Lexing
import Verif.Spec.JsonValue
import Verif.Spec.SourceLiterals
import Verif.Lemmas.TokenShapes
import Verif.Lemmas.SourceLiterals
import Verif.Lemmas.LiteralsRead
import Verif.Props.JsonValues
import Verif.Spec.AvroJson
import Verif.Lemmas.AvroJson
import Verif.Props.AvroJson
import Verif.Spec.Reformat
import Verif.Lemmas.BareParse
import Verif.Lemmas.BareReader
import Verif.Lemmas.BareOutput
import Verif.Lemmas.BareCompile
import Verif.Props.Layout
import Verif.JsonText
import Verif.Spec.JsonText
import Verif.Lemmas.JsonTokens
import Verif.Lemmas.JsonRead
import Verif.Lemmas.JsonStrip
import Verif.Lemmas.JsonSound
import Verif.Lemmas.JsonPretty
import Verif.Props.JsonText
import Verif.Spec.Held
import Verif.Lemmas.Held
import Verif.Lemmas.Kept
import Verif.Lemmas.Closed
import Verif.Spec.Reimport
import Verif.Lemmas.Reimport
import Verif.Props.Mentioned
import Verif.Props.Reimport
import Verif.Spec.Tokens
import Verif.Lemmas.Tokens
import Verif.Spec.SourceSpans
import Verif.Lemmas.SourceSpans
import Verif.Spec.Positions
import Verif.Lemmas.Positions
import Verif.Diagnostics
import Verif.Lemmas.UndefinedOrder
import Verif.Props.SourceSpans
import Verif.Args
import Verif.Spec.Args
import Verif.Lemmas.Args
import Verif.Props.Args
import Verif.Text
import Verif.SyntaxErrors
import Verif.Spec.SyntaxErrors
import Verif.Lemmas.Text
import Verif.Lemmas.SyntaxErrors
import Verif.Lemmas.SyntaxPlaces
import Verif.Lemmas.Braces
import Verif.Lemmas.SyntaxMessages
import Verif.Lemmas.SyntaxPatterns
import Verif.Props.SyntaxErrors
import Verif.Props.SyntaxMessages
import Verif.Props.SyntaxPatterns
import Verif.Props.SyntaxFindings
import Verif.Spec.SyntaxAnnotations
import Verif.Props.SyntaxAnnotations
import Verif.Props.SyntaxQuotes
import Verif.Spec.Directory
import Verif.Props.Directory
import Verif.Floats
import Verif.Spec.Floats
import Verif.Lemmas.Rounding
import Verif.Lemmas.FloatOps
import Verif.Lemmas.FloatText
import Verif.Props.Floats
import Verif.Spec.Acceptance
import Verif.Lemmas.Acceptance
import Verif.Lemmas.AcceptDecls
import Verif.Lemmas.Warnings
import Verif.Props.Acceptance
import Verif.Spec.CompileOk
import Verif.Lemmas.Importable
import Verif.Lemmas.CompileOk
import Verif.Props.CompileOk
import Verif.Spec.Problem
import Verif.Lemmas.Problem
import Verif.Props.Problem
import Verif.Visited
import Verif.Props.Visited
import Verif.Spec.ImportDefect
import Verif.Lemmas.ImportDefect
import Verif.Spec.Mistake
import Verif.Spec.Where
import Verif.Lemmas.Where
import Verif.Lemmas.NodeSpans
import Verif.Lemmas.Mistake
import Verif.Lemmas.MistakeDecls
import Verif.Props.Mistake
import Verif.WarningText
import Verif.Spec.Warnings
import Verif.Lemmas.WarningText
import Verif.Props.Warnings
import Verif.Props.ImportDefect
import Verif.Props.ValidDoc
import Verif.Spec.Size
import Verif.Lemmas.Size
import Verif.Props.Size
import Verif.Spec.Hermetic
import Verif.Props.Hermetic
import Verif.Spec.Legal
import Verif.Props.Legal
import Verif.Contexts
import Verif.Spec.Contexts
import Verif.Lemmas.Contexts
import Verif.Props.Contexts
import Verif.Spec.Local
import Verif.Lemmas.Local
import Verif.Props.Local
import Verif.Spec.Split
import Verif.Lemmas.Split
import Verif.Props.Split
import Verif.Spec.Rearrange
import Verif.Lemmas.Rearrange
import Verif.Lemmas.RearrangeOk
import Verif.Props.Rearrange
import Verif.Spec.Redocument
import Verif.Lemmas.MuteParse
import Verif.Lemmas.MuteReader
import Verif.Lemmas.Blank
import Verif.Lemmas.MuteOutput
import Verif.Lemmas.MuteCompile
import Verif.Props.Redocument
import Verif.Lemmas.SameOutput
import Verif.Spec.Again
import Verif.Lemmas.AgainDocs
import Verif.Lemmas.AgainMutual
import Verif.Lemmas.AgainFirst
import Verif.Lemmas.AgainSecond
import Verif.Props.Again
import Verif.Spec.Backticks
import Verif.Props.Backticks
import Verif.Spec.Notations
import Verif.Lemmas.Notations
import Verif.Lemmas.NotationsRead
import Verif.Lemmas.NotationsText
import Verif.Lemmas.Evaluate
import Verif.Props.Notations
import Verif.Props.Oddities
import Verif.Spec.SearchPath
import Verif.Props.SearchPath
import Verif.Lemmas.Repeat
import Verif.Props.Repeat
import Verif.Spec.TextOfFile
import Verif.Props.TextOfFile
import Verif.Props.HashOrder
import Verif.Spec.JsonLayout
import Verif.Props.JsonLayout
import Verif.Fidelity
