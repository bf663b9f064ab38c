import Verif.Props.RingBuffer
import Verif.Props.Queue
import Verif.Props.Stack
import Verif.Props.Seq
import Verif.Props.Misc
import Verif.Props.PowerOfTwo
import Verif.Props.Map
import Verif.Props.Set
import Verif.Props.RBTree
import Verif.Props.ThreadedQueue
import Verif.Props.List
import Verif.Props.Buffer
import Verif.Props.Csv
import Verif.Props.Xml
import Verif.Props.StrCopy
import Verif.Props.Path
import Verif.Props.Hash
import Verif.Props.Replace
import Verif.Props.Tokens
import Verif.Props.Trim
import Verif.Props.Escape
import Verif.Props.StrCompare
import Verif.Props.StrNum
import Verif.Props.Substring
import Verif.Props.SubstringAll
import Verif.Props.IpObj
import Verif.Props.Io
import Verif.Props.StrSeq
import Verif.Props.Env
import Verif.Props.Json
import Verif.Props.JsonOps
import Verif.Props.JsonParse
import Verif.Props.JsonText
import Verif.Props.JsonWrite
import Verif.Props.JsonWriteHeap
import Verif.Props.JsonWriteThreads
import Verif.Props.JsonCanon
import Verif.Props.JsonLoose
import Verif.Props.Sparse
import Verif.Props.FileCopy
import Verif.Props.FileLock
import Verif.Props.SafeOpen
import Verif.Props.Compat
import Verif.Props.StrCaseAll
import Verif.Props.Mustache
import Verif.Props.Inet
import Verif.Props.JsonApi
import Verif.Props.Snprintf
import Verif.Props.Getopt
import Verif.Props.PcreWrap
import Verif.Props.ListMut
import Verif.Props.SafeChown
import Verif.Props.DelTree
import Verif.Props.Fopen
import Verif.Props.Logging
import Verif.Props.HashApi
import Verif.Props.ThreadedStack
import Verif.Props.PassFile
import Verif.Props.RegexMatch
import Verif.Props.KeyValue
import Verif.Props.SetJson
import Verif.Props.Yaml
import Verif.Props.DataFile
import Verif.Props.DequeThreads
import Verif.Props.QueueFine
import Verif.Props.GenericAt
import Verif.Props.SnprintfFlt
import Verif.Props.JsonHeap
import Verif.Props.JsonParseHeap
import Verif.Props.IpHex
import Verif.Props.Environ
import Verif.Props.CloseFrom
import Verif.Props.Mkdtemp
import Verif.Props.AddrInfo
import Verif.Props.Writers
import Verif.Props.KnownDirs
import Verif.Props.Statistics
import Verif.Props.Unicode
import Verif.Props.Base64
import Verif.Props.JsonTyped
import Verif.Props.Containers
import Verif.Props.PcreJob
import Verif.Props.CryptoCompat
import Verif.Props.Man
import Verif.Props.WinPass
import Verif.Props.Glob
import Verif.Props.FileName
import Verif.Props.StrNumExt
import Verif.Props.JsonRfc
import Verif.Props.JsonEnd
import Verif.Props.JsonCopyAll
import Verif.Props.CaseAll
import Verif.Props.Format
import Verif.Props.QueueTime
import Verif.Props.RBVerify
import Verif.Props.StrHash
import Verif.Props.Dirent
import Verif.Props.FileMisc
import Verif.Props.WinLock
import Verif.Props.RBPtr
import Verif.Props.HashPtr
import Verif.Props.SeqFile
import Verif.Props.Texts
import Verif.Props.Headers
import Verif.Props.CompatMisc
import Verif.Props.LogThreads
import Verif.Props.CleanupThreads
import Verif.Props.SeqHeap
import Verif.Props.SeqShuffle
import Verif.Props.KnownDirsThreads
import Verif.Props.Alloc
import Verif.Props.Ip6Exact
import Verif.Props.CsvExact
import Verif.Props.CsvFileExact
import Verif.Props.ContHeap
import Verif.Props.BufHeap
import Verif.Props.SetJsonAll
import Verif.Props.CsvUninit
