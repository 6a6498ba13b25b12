import Verif.Basic
import Verif.Fields
import Verif.FieldsLemmas
import Verif.Props.Fields
import Verif.PyDict
import Verif.Symbols
import Verif.SymbolsLemmas
import Verif.Props.Symbols
import Verif.Props.Catalog
import Verif.BufferTree
import Verif.Props.BufferTree
import Verif.BufferQueue
import Verif.Multimap
import Verif.Util
import Verif.Props.BufferQueue
import Verif.Props.Multimap
import Verif.Props.Util
import Verif.Decimal
import Verif.Utf8
import Verif.Timestamp
import Verif.Scalars
import Verif.ScalarsLemmas
import Verif.TimestampLemmas
import Verif.TimestampCodec
import Verif.Props.Scalars
import Verif.Events
import Verif.RawWriter
import Verif.IonSpec
import Verif.TimestampSpec
import Verif.RawWriterLemmas
import Verif.Props.RawWriter
import Verif.Props.Trampoline
import Verif.Props.Instant
import Verif.ManagedWriter
import Verif.Props.ManagedWriter
import Verif.RawReader
import Verif.RawReaderLemmas
import Verif.RawReaderSteps
import Verif.RawReaderValues
import Verif.Props.RawReader
import Verif.IonExtent
import Verif.Blocking
import Verif.Props.Nesting
import Verif.Props.Truncation
import Verif.Props.Skipping
import Verif.ManagedReader
import Verif.ManagedSpec
import Verif.Props.ManagedReader
import Verif.Props.ManagedReading
import Verif.Props.RoundTrip
import Verif.Simple
import Verif.SimpleSpec
import Verif.Props.Simple
import Verif.Props.Loading
import Verif.Equivalence
import Verif.EquivalenceSpec
import Verif.Props.Equivalence
import Verif.TextWriter
import Verif.TextReader
import Verif.Base64Spec
import Verif.Json
import Verif.JsonSpec
import Verif.Props.Json
import Verif.FramingSpec
import Verif.Props.Malformed
import Verif.TextRun
import Verif.TextSpec
import Verif.TextSteps
import Verif.TextSymbols
import Verif.TextScalars
import Verif.TextTimestamps
import Verif.TextLong
import Verif.TextOperators
import Verif.TextValues
import Verif.TextWriterScalars
import Verif.TextWriting
import Verif.TextAscii
import Verif.TextEval
import Verif.Props.Text
import Verif.DataTrampoline
import Verif.Props.TextProtocol
import Verif.SimpleText
import Verif.ManagedText
import Verif.TextDocSpec
import Verif.Props.TextLoading
import Verif.Props.TextTables
import Verif.Props.TextDumpLoad
import Verif.Props.TextGrammar
import Verif.TextPrefixSpec
import Verif.TextPrefix
import Verif.TextReject
import Verif.TextBadSpec
import Verif.TextBad
import Verif.TextBadNumbers
import Verif.TextBadWords
import Verif.TextWrong
import Verif.Props.TextReject
import Verif.TextCalls
import Verif.Props.TextNesting
import Verif.TextTotal
import Verif.TextSafe
import Verif.TextSafeRun
import Verif.Props.TextErrors
import Verif.TextGiven
import Verif.TextWhole
import Verif.TextLevels
import Verif.TextPaths
import Verif.Props.TextChunks
import Verif.TextPathsLoad
import Verif.Props.TextChunksLoad
import Verif.ManagedNesting
import Verif.Props.ManagedNesting
import Verif.LoadWhole
import Verif.LoadEval
import Verif.Props.LoadWhole
import Verif.TextSkip
import Verif.TextSkipLoad
import Verif.Props.TextSkip
import Verif.Props.Versions
import Verif.Props.Transcoding
import Verif.Props.FailedDump
import Verif.Props.Appending
import Verif.EventEquality
import Verif.Props.EventEquality
import Verif.TimestampShorthand
import Verif.Props.TimestampShorthand
import Verif.EventValues
import Verif.Props.EventValues
import Verif.LoadTotal
import Verif.LoadErrors
import Verif.Props.LoadTotal
import Verif.Props.SameOutput
import Verif.Props.LoadedValues
import Verif.TextLoadTotal
import Verif.TextEventValues
import Verif.TextLoadErrors
import Verif.Props.TextLoadTotal
import Verif.Props.Declared
import Verif.Props.CutFiles
import Verif.NativeValues
import Verif.Props.NativeValues
import Verif.Props.Piping
import Verif.Props.TextPiping
