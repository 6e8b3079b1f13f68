import Verif.Lemmas.AnyBuilder
import Verif.Lemmas.BalanceCheck
import Verif.Lemmas.Bitmap
import Verif.Lemmas.Builder
import Verif.Lemmas.BuilderProtocol
import Verif.Lemmas.CPAccessor
import Verif.Lemmas.Comparator
import Verif.Lemmas.CoreSchema
import Verif.Lemmas.DecoderCursor
import Verif.Lemmas.Drawing
import Verif.Lemmas.ErrorsLater
import Verif.Lemmas.FieldTags
import Verif.Lemmas.GenCode
import Verif.Lemmas.GenFields
import Verif.Lemmas.GenNames
import Verif.Lemmas.GenShows
import Verif.Lemmas.GenTerm
import Verif.Lemmas.GenText
import Verif.Lemmas.GenTypeName
import Verif.Lemmas.GenTypeText
import Verif.Lemmas.GenTypes
import Verif.Lemmas.GenVars
import Verif.Lemmas.GenericMap
import Verif.Lemmas.Gist
import Verif.Lemmas.GoExpr
import Verif.Lemmas.GoInteger
import Verif.Lemmas.GoText
import Verif.Lemmas.GoType
import Verif.Lemmas.GoyamlAnyBuilder
import Verif.Lemmas.GoyamlBuilder
import Verif.Lemmas.GoyamlReader
import Verif.Lemmas.GoyamlRefine
import Verif.Lemmas.GoyamlTree
import Verif.Lemmas.Ieee
import Verif.Lemmas.JsonText
import Verif.Lemmas.Krfl
import Verif.Lemmas.Layout
import Verif.Lemmas.LexDirs
import Verif.Lemmas.LexFlow
import Verif.Lemmas.LexLiteral
import Verif.Lemmas.LexQuote
import Verif.Lemmas.LexRun
import Verif.Lemmas.Lexer
import Verif.Lemmas.Meaning
import Verif.Lemmas.ParserBlockSpec
import Verif.Lemmas.ParserDocsSpec
import Verif.Lemmas.ParserElem
import Verif.Lemmas.ParserEntry
import Verif.Lemmas.ParserExec
import Verif.Lemmas.ParserFlowSpec
import Verif.Lemmas.ParserMono
import Verif.Lemmas.ParserRunBlock
import Verif.Lemmas.ParserRunDirs
import Verif.Lemmas.ParserRunDocs
import Verif.Lemmas.ParserRunElem
import Verif.Lemmas.ParserRunFlow
import Verif.Lemmas.ParserRunFolded
import Verif.Lemmas.ParserRunKey
import Verif.Lemmas.ParserRunLiteral
import Verif.Lemmas.ParserRunNode
import Verif.Lemmas.ParserRunPlain
import Verif.Lemmas.ParserRunQuote
import Verif.Lemmas.ParserSpec
import Verif.Lemmas.ParserState
import Verif.Lemmas.ParserStreamSpec
import Verif.Lemmas.ParserWp
import Verif.Lemmas.PkgPath
import Verif.Lemmas.Printer
import Verif.Lemmas.RawText
import Verif.Lemmas.RawTransformer
import Verif.Lemmas.Reader
import Verif.Lemmas.ReaderRefine
import Verif.Lemmas.ReaderTree
import Verif.Lemmas.RuneAccessor
import Verif.Lemmas.Schema
import Verif.Lemmas.TextBlock
import Verif.Lemmas.TextBlocks
import Verif.Lemmas.TextDocs
import Verif.Lemmas.TextElem
import Verif.Lemmas.TextFlow
import Verif.Lemmas.TextRules
import Verif.Lemmas.TextRun
import Verif.Lemmas.TextStreams
import Verif.Lemmas.Timestamp
import Verif.Lemmas.Writer
import Verif.Lemmas.WrittenRun
import Verif.Lemmas.YamlChar
import Verif.Model.AnyBuilder
import Verif.Model.Ast
import Verif.Model.BalanceCheck
import Verif.Model.Binary
import Verif.Model.Bitmap
import Verif.Model.BootMain
import Verif.Model.Bootstrap
import Verif.Model.Builder
import Verif.Model.CPAccessor
import Verif.Model.Cmd
import Verif.Model.Comparator
import Verif.Model.Decoder
import Verif.Model.Encoder
import Verif.Model.Errors
import Verif.Model.Float
import Verif.Model.GenCode
import Verif.Model.GenFields
import Verif.Model.GenNames
import Verif.Model.GenText
import Verif.Model.GenTypeName
import Verif.Model.GenTypes
import Verif.Model.Generic
import Verif.Model.GoyamlAnyBuilder
import Verif.Model.GoyamlBuilder
import Verif.Model.GoyamlGraph
import Verif.Model.GoyamlReader
import Verif.Model.Inserter
import Verif.Model.Lexer
import Verif.Model.Parser
import Verif.Model.ParserBlock
import Verif.Model.ParserDocs
import Verif.Model.ParserFlow
import Verif.Model.PkgPath
import Verif.Model.Printer
import Verif.Model.RawTransformer
import Verif.Model.Reader
import Verif.Model.Res
import Verif.Model.RuneStream
import Verif.Model.Schema
import Verif.Model.Strconv
import Verif.Model.Timestamp
import Verif.Model.Token
import Verif.Model.Writer
import Verif.Model.WriterKeeper
import Verif.Model.YamlChar
import Verif.Props.Accessor
import Verif.Props.AnyBuilder
import Verif.Props.Balance
import Verif.Props.Binary
import Verif.Props.Blocks
import Verif.Props.BootMain
import Verif.Props.Bootstrap
import Verif.Props.Builder
import Verif.Props.CharClasses
import Verif.Props.Cmd
import Verif.Props.Comparator
import Verif.Props.EndToEnd
import Verif.Props.Errors
import Verif.Props.FieldTags
import Verif.Props.Float
import Verif.Props.Float32
import Verif.Props.FloatsEndToEnd
import Verif.Props.GenBasics
import Verif.Props.GenCalls
import Verif.Props.GenCode
import Verif.Props.GenFields
import Verif.Props.GenLoops
import Verif.Props.GenMethods
import Verif.Props.GenNames
import Verif.Props.GenStructs
import Verif.Props.GenText
import Verif.Props.GenTypeName
import Verif.Props.GenTypes
import Verif.Props.GenericTime
import Verif.Props.GoyamlAnyBuilder
import Verif.Props.GoyamlBuilder
import Verif.Props.GoyamlReader
import Verif.Props.Invents
import Verif.Props.Json
import Verif.Props.Lexer
import Verif.Props.Meaning
import Verif.Props.Memo
import Verif.Props.Parser
import Verif.Props.PkgPath
import Verif.Props.Printer
import Verif.Props.Quoting
import Verif.Props.RawText
import Verif.Props.RawTransformer
import Verif.Props.Reader
import Verif.Props.Roundtrip
import Verif.Props.Scalars
import Verif.Props.Timestamp
import Verif.Props.Utf8
import Verif.Props.Writer
import Verif.Props.WriterKeeper
import Verif.Spec.Base64
import Verif.Spec.BlockText
import Verif.Spec.CharClasses
import Verif.Spec.CoreSchema
import Verif.Spec.Cursor
import Verif.Spec.DecoderCursor
import Verif.Spec.Discovered
import Verif.Spec.Drawing
import Verif.Spec.Escapes
import Verif.Spec.Expansion
import Verif.Spec.FieldTags
import Verif.Spec.FloatValue
import Verif.Spec.GenGraph
import Verif.Spec.GenValues
import Verif.Spec.GenericValue
import Verif.Spec.Gist
import Verif.Spec.GoInteger
import Verif.Spec.GoProgram
import Verif.Spec.GoText
import Verif.Spec.GoType
import Verif.Spec.GoyamlCursor
import Verif.Spec.GoyamlValue
import Verif.Spec.Ieee
import Verif.Spec.Json
import Verif.Spec.Layout
import Verif.Spec.Meaning
import Verif.Spec.Nesting
import Verif.Spec.PlainTree
import Verif.Spec.Position
import Verif.Spec.Protocol
import Verif.Spec.RawText
import Verif.Spec.ReaderCursor
import Verif.Spec.Represents
import Verif.Spec.Says
import Verif.Spec.Selector
import Verif.Spec.Timestamp
import Verif.Spec.Tree
import Verif.Spec.TreeEq
import Verif.Spec.Utf8
import Verif.Spec.WritableTree
