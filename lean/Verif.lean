import Verif.Props.Base64
import Verif.Props.Numeral
import Verif.Props.BitOp
import Verif.Props.Endian
import Verif.Props.BitVector
import Verif.Props.ShiftLeftBit
import Verif.Props.SucVector
import Verif.Props.Wavelet
import Verif.Props.Frequency
import Verif.Props.FMindex
import Verif.Props.StringOp
import Verif.Props.Utf
import Verif.Props.Stream
import Verif.Props.Serializer
import Verif.Props.LineStream
import Verif.Props.Csv
import Verif.Props.Config
import Verif.Props.MiniXml
import Verif.Props.Time
import Verif.Props.Option
import Verif.Props.Sha
import Verif.Props.Hash
import Verif.Props.Random
import Verif.Props.CSucVector
import Verif.Props.Array
import Verif.Props.TopScore
import Verif.Props.FileName
import Verif.Props.TfIdf
import Verif.Props.Gzip
import Verif.Props.PartialIO
import Verif.Props.Sparse
import Verif.Props.Event
import Verif.Props.Parallel
import Verif.Props.Handle
import Verif.Props.IndexIO
import Verif.Props.UString
import Verif.Props.Process
import Verif.Props.Period
import Verif.Props.Select8
import Verif.Props.Zlib
import Verif.Props.CondVar
import Verif.Props.Plsi
import Verif.Props.NlpRandom
import Verif.Props.TestRun
import Verif.Props.Log
import Verif.Props.Svd
import Verif.Props.V128
import Verif.Props.Json
import Verif.Props.Mmap
import Verif.Props.Ssl
import Verif.Props.Crypto
import Verif.Props.SocketAddr
import Verif.Props.SocketSetup
import Verif.Props.Exception
import Verif.Props.SysUtil
import Verif.Props.FileOps
import Verif.Props.Sais
import Verif.Props.Bwt
import Verif.Props.RandGen
import Verif.Props.Mecab
import Verif.Props.RegexChar
import Verif.Props.Atomic
import Verif.Props.AutoLock
import Verif.Props.ConfigGet
import Verif.Props.SparseIO
import Verif.Props.OptionMsg
import Verif.Props.SvdText
import Verif.Props.TfIdfTerm
import Verif.Props.EventPipe
import Verif.Props.Tls
import Verif.Props.Epoll
import Verif.Props.XmlHeap
import Verif.Props.ProcObj
import Verif.Props.Bench
import Verif.Props.Desymbol
import Verif.Props.StrAlias
import Verif.Props.CsvFile
import Verif.Props.FmSample
import Verif.Props.FMindexC
import Verif.Props.FMindexCIO
import Verif.Props.ZlibSmpl
import Verif.Props.CSucSmpl
import Verif.Props.Option2Smpl
import Verif.Props.SocketSmpl
import Verif.Props.SerStream
import Verif.Props.Select8Gen
import Verif.Props.WmBench
import Verif.Props.PlsiSmpl
import Verif.Props.SvdSmpl
import Verif.Props.SslSmpl
import Verif.Props.MecabSmpl
import Verif.Props.UStream
import Verif.Props.ThreadObj
import Verif.Props.WaveletDirect
import Verif.Props.FmSample32
import Verif.Props.UFind
import Verif.Props.TfIdfWeight
import Verif.Props.Monitor
import Verif.Props.MonitorWin
import Verif.Props.UCompare
import Verif.Props.StdStream
import Verif.Props.OptShow
import Verif.Props.V128Lane
import Verif.Props.RegexWrap
import Verif.Props.RegexIter
import Verif.Props.FreqCopy
import Verif.Props.TfIdfCopy
import Verif.Props.FsNames
import Verif.Props.Sha1Text
import Verif.Props.FileWin
import Verif.Props.TimeFmt
import Verif.Props.BitVectorOwn
import Verif.Props.OptionShare
import Verif.Props.ShaSession
import Verif.Props.ArrayFail
import Verif.Props.ProcMany
import Verif.Props.TopNan
import Verif.Props.SerFixed
import Verif.Props.OptStream
import Verif.Props.ConfigPtr
import Verif.Props.QuitEvent
import Verif.Props.LogThreads
import Verif.Props.Appenders
import Verif.Props.Sigpipe
import Verif.Props.SocketUse
import Verif.Props.MmapLive
import Verif.Props.SocketServ
import Verif.Props.SslStatic
import Verif.Props.ParallelSigned
import Verif.Props.CsvRecover
import Verif.Props.SucFail
import Verif.Props.ConfigFail
import Verif.Props.LineRecover
import Verif.Props.OptionAgain
