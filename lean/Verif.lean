import Verif.Ring.Props
import Verif.Codec.Hex
import Verif.Codec.Base64Props
import Verif.Codec.Base64Stream
import Verif.Container.VectorQueue
import Verif.Container.Interval
import Verif.Container.Pool
import Verif.Basic.Math
import Verif.Basic.Endian
import Verif.Hash.Misc
import Verif.Hash.Stream
import Verif.Container.Mapping
import Verif.Concurrency.Spinlock
import Verif.Concurrency.Watchdog
import Verif.Stream.MemoryFile
import Verif.Stream.Fifo
import Verif.Stream.Text
import Verif.Stream.Limiter
import Verif.Stream.Window
import Verif.Stream.FileWindow
import Verif.Stream.Cache
import Verif.Stream.CacheFail
import Verif.Stream.AsyncReader
import Verif.Stream.AsyncWriter
import Verif.Stream.Replicator
import Verif.Str.Char
import Verif.Str.Find
import Verif.Str.Compare
import Verif.Str.Collate
import Verif.Str.Copy
import Verif.Str.Trim
import Verif.Str.Crlf
import Verif.Str.Utf16
import Verif.Str.Uuid
import Verif.Str.ToInt
import Verif.Time.Date
import Verif.Time.Timestamp
import Verif.Record.IdRec
import Verif.Record.Minisign
import Verif.Progress.Sections
import Verif.Progress.Lazy
import Verif.Progress.Aggregate
import Verif.Sgml.Table
import Verif.Sgml.Lookup
import Verif.Sgml.Decode
import Verif.Sgml.Map
import Verif.Sgml.Encode
import Verif.Sgml.RoundTrip
import Verif.Sgml.Utf16
import Verif.Sgml.Fixed
import Verif.Parser.Core
import Verif.Parser.Combine
import Verif.Parser.Perm
import Verif.Parser.Tree
import Verif.Parser.Leaf
import Verif.Parser.Sgml
import Verif.Parser.Number
import Verif.Parser.Roman
import Verif.Parser.Numeral
import Verif.Parser.Ip
import Verif.Parser.Iban
import Verif.Parser.SiRef
import Verif.Parser.DateTime
import Verif.Parser.Json
import Verif.Parser.Dns
import Verif.Parser.Url
import Verif.Parser.Phone
import Verif.Parser.Emoticon
import Verif.Parser.Http
import Verif.Parser.HttpMedia
import Verif.Parser.HttpUrl
import Verif.Parser.HttpLang
import Verif.Parser.HttpReq
import Verif.Parser.Css
import Verif.Parser.Html
import Verif.Html.Escape
import Verif.Html.UrlEscape
import Verif.Html.CssEscape
import Verif.Html.Elements
import Verif.Html.Document
import Verif.Html.DocMove
import Verif.Html.DocSource
import Verif.Html.DocTree
import Verif.Html.DocClose
import Verif.Html.DocSpecial
import Verif.Html.DocTotal
import Verif.Html.DocSections
import Verif.Html.DocAgain
import Verif.Html.DocCharset
import Verif.Html.DocEntities
import Verif.Html.Tokens
import Verif.Html.Link
import Verif.Html.LinkBack
import Verif.Html.LinkTag
import Verif.Html.LinkCss
import Verif.Html.LinkAll
import Verif.Html.LinkDemo
import Verif.Html.TokenLists
import Verif.Html.LinkTold
import Verif.Locale.LangTable
import Verif.Locale.LangId
import Verif.Locale.LangSpec
import Verif.Stream.MemoryData
import Verif.Stream.MemoryStream
import Verif.Record.RecordValue
import Verif.Record.StreamRec
import Verif.Record.Wav
import Verif.Record.WavSpec
import Verif.Record.WavCues
import Verif.Record.WavCuesProof
import Verif.Record.WavCuesRead
import Verif.Record.WavFind
import Verif.Record.WavTexts
import Verif.Record.WavReadCues
import Verif.Record.WavRemove
import Verif.Stream.SysStream
import Verif.Stream.DiagFile
import Verif.Locale.Charset
import Verif.Locale.Encoder
import Verif.Stream.Zlib
import Verif.Sys.Handles
import Verif.Str.Format
import Verif.Str.Case
import Verif.Sys.RefPtr
import Verif.Stream.DiskFile
import Verif.Stream.SaveLoad
import Verif.Stream.MemoryOwner
import Verif.Parser.SgmlTree
import Verif.Parser.SgmlUrl
import Verif.Parser.SgmlIp
import Verif.Parser.SgmlNum
import Verif.Parser.SgmlDate
import Verif.Stream.Stack
import Verif.Progress.Chain
import Verif.Record.StdRec
import Verif.Stream.ComStream
import Verif.Str.Normalize
import Verif.Parser.Shift
import Verif.Parser.IbanError
import Verif.Hash.CrcError
import Verif.Parser.IbanTable
import Verif.Parser.SiError
import Verif.Stream.Program
import Verif.Sgml.Entities
import Verif.Stream.Base64Pipe
import Verif.Stream.Tower
import Verif.Stream.Ends
import Verif.Parser.ShiftParts
import Verif.Html.ComesBack
import Verif.Parser.HttpWritten
import Verif.Parser.HttpValues
import Verif.Parser.HttpAccept
import Verif.Parser.DateWritten
import Verif.Parser.IpWritten
import Verif.Parser.AngleWritten
import Verif.Parser.HostWritten
import Verif.Parser.UrlWritten
