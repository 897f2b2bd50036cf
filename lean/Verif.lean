import Verif.Props.Base64
import Verif.Props.Hex
import Verif.Props.Backslash
import Verif.Props.Xor
import Verif.Props.Ctr
import Verif.Props.Chain
import Verif.Props.EncoderLife
import Verif.Props.WordWrap
import Verif.Props.Tcl
import Verif.Props.Time
import Verif.Props.Hash
import Verif.Props.UrlEnc
import Verif.Props.CStr
import Verif.Props.Split
import Verif.Props.Num
import Verif.Props.VerString
import Verif.Props.Buf
import Verif.Props.MagicCircle
import Verif.Props.ScatterHash
import Verif.Props.LinkList
import Verif.Props.HashTable
import Verif.Props.Key
import Verif.Props.GenDelta
import Verif.Props.TempGen
import Verif.Props.FilterGen
import Verif.Props.ListGen
import Verif.Props.MountGen
import Verif.Props.Serialize
import Verif.Props.Addr
import Verif.Props.Attrs
import Verif.Props.Log
import Verif.Props.Moniker
import Verif.Props.ProcQueue
import Verif.Props.Stream
import Verif.Props.StreamList
import Verif.Props.AtomicFile
import Verif.Props.LockFile
import Verif.Props.TransGen
import Verif.Props.UniConn
import Verif.Props.IniGen
import Verif.Props.Watch
import Verif.Props.RecIter
import Verif.Props.XIter
import Verif.Props.Remote
import Verif.Model.Caches
import Verif.Spec.Cache
import Verif.Lemmas.Notify
import Verif.Lemmas.Reget
import Verif.Props.Cache
import Verif.Props.Reget
import Verif.Model.Replicate
import Verif.Spec.Replica
import Verif.Lemmas.Replicate
import Verif.Props.Replicate
import Verif.Model.DefGen
import Verif.Spec.Default
import Verif.Props.DefGen
import Verif.Model.Format
import Verif.Spec.Format
import Verif.Lemmas.Format
import Verif.Props.Format
import Verif.Model.Strings
import Verif.Spec.Strings
import Verif.Lemmas.Strings
import Verif.Lemmas.StringOps
import Verif.Props.Strings
import Verif.Model.KeyStore
import Verif.Spec.Keys
import Verif.Lemmas.KeyStore
import Verif.Lemmas.KeyStoreOps
import Verif.Props.KeyStore
import Verif.Model.Glob
import Verif.Spec.Ere
import Verif.Spec.Glob
import Verif.Lemmas.Glob
import Verif.Props.Glob
import Verif.Model.Cont
import Verif.Spec.Coroutine
import Verif.Lemmas.Cont
import Verif.Lemmas.ContSim
import Verif.Lemmas.ContStep
import Verif.Props.Cont
import Verif.Model.Http
import Verif.Spec.Http
import Verif.Lemmas.HttpText
import Verif.Lemmas.Http
import Verif.Lemmas.HttpExec
import Verif.Lemmas.HttpRun
import Verif.Props.Http
import Verif.Model.BusServer
import Verif.Spec.Bus
import Verif.Lemmas.BusServer
import Verif.Props.BusServer
import Verif.Model.BusConn
import Verif.Spec.BusCalls
import Verif.Lemmas.BusConn
import Verif.Props.BusConn
import Verif.Model.UrlEnc
import Verif.Model.Url
import Verif.Spec.Url
import Verif.Lemmas.Url
import Verif.Props.Url
import Verif.Model.EncStream
import Verif.Spec.Coder
import Verif.Lemmas.EncStream
import Verif.Props.EncStream
import Verif.Model.FsGen
import Verif.Spec.Folders
import Verif.Lemmas.FsGen
import Verif.Lemmas.FsSet
import Verif.Props.FsGen
import Verif.Model.ConfFile
import Verif.Spec.ConfFile
import Verif.Lemmas.ConfFile
import Verif.Lemmas.ConfGet
import Verif.Lemmas.ConfText
import Verif.Props.ConfFile
import Verif.Model.SslStream
import Verif.Lemmas.SslStream
import Verif.Props.SslStream
import Verif.Spec.LogRcv
import Verif.Model.LogRcv
import Verif.Lemmas.LogRcv
import Verif.Props.LogRcv
import Verif.Spec.Sizes
import Verif.Model.Sizes
import Verif.Lemmas.Sizes
import Verif.Props.Sizes
import Verif.Spec.TextUtil
import Verif.Model.TextUtil
import Verif.Lemmas.TextUtil
import Verif.Props.TextUtil
import Verif.Spec.Timed
import Verif.Model.Timed
import Verif.Lemmas.Timed
import Verif.Props.Timed
import Verif.Spec.DirWalk
import Verif.Model.DirWalk
import Verif.Lemmas.DirWalk
import Verif.Props.DirWalk
import Verif.Spec.Copy
import Verif.Model.Copy
import Verif.Lemmas.Copy
import Verif.Props.Copy
import Verif.Spec.IntText
import Verif.Model.IntText
import Verif.Lemmas.IntText
import Verif.Props.IntText
import Verif.Spec.ConfEmu
import Verif.Model.ConfEmu
import Verif.Lemmas.ConfEmu
import Verif.Props.ConfEmu
import Verif.Spec.ConfNotify
import Verif.Props.ConfNotify
import Verif.Spec.PermSet
import Verif.Model.PermGen
import Verif.Lemmas.PermSet
import Verif.Props.PermSet
import Verif.Spec.Uuid
import Verif.Model.Uuid
import Verif.Props.Uuid
import Verif.Spec.Xplc
import Verif.Model.Xplc
import Verif.Props.Xplc
import Verif.Spec.Refs
import Verif.Model.Refs
import Verif.Props.Refs
import Verif.Spec.Ftp
import Verif.Model.Ftp
import Verif.Lemmas.FtpDate
import Verif.Lemmas.FtpLine
import Verif.Props.Ftp
import Verif.Spec.Retry
import Verif.Model.Retry
import Verif.Props.Retry
import Verif.Spec.BusArgs
import Verif.Model.BusArgs
import Verif.Props.BusArgs
import Verif.Spec.Args
import Verif.Model.Args
import Verif.Props.Args
import Verif.Spec.LockDev
import Verif.Model.LockDev
import Verif.Props.LockDev
import Verif.Spec.Aliaser
import Verif.Model.Aliaser
import Verif.Props.Aliaser
import Verif.Spec.ErrorObj
import Verif.Model.ErrorObj
import Verif.Props.ErrorObj
import Verif.Spec.Sorter
import Verif.Model.Sorter
import Verif.Props.Sorter
import Verif.Spec.BusWire
import Verif.Model.BusWire
import Verif.Props.BusWire
import Verif.Spec.SubProc
import Verif.Model.SubProc
import Verif.Props.SubProc
import Verif.Spec.Daemon
import Verif.Model.Daemon
import Verif.Props.Daemon
import Verif.Spec.Gzip
import Verif.Model.Gzip
import Verif.Props.Gzip
import Verif.Spec.LogFile
import Verif.Model.LogFile
import Verif.Props.LogFile
import Verif.Spec.Cert
import Verif.Model.Cert
import Verif.Props.Cert
import Verif.Spec.Resolver
import Verif.Model.Resolver
import Verif.Props.Resolver
import Verif.Spec.Debugger
import Verif.Model.Debugger
import Verif.Props.Debugger
import Verif.Spec.Tcp
import Verif.Model.Tcp
import Verif.Props.Tcp
import Verif.Spec.Datagram
import Verif.Model.Datagram
import Verif.Props.Datagram
import Verif.Spec.Firewall
import Verif.Model.Firewall
import Verif.Props.Firewall
import Verif.Spec.Routes
import Verif.Model.Routes
import Verif.Props.Routes
import Verif.Spec.FtpClient
import Verif.Model.FtpClient
import Verif.Props.FtpClient
import Verif.Spec.UrlPool
import Verif.Model.UrlPool
import Verif.Props.UrlPool
import Verif.Model.Unwrap
import Verif.Props.Unwrap
import Verif.Spec.Child
import Verif.Model.Child
import Verif.Props.Child
import Verif.Spec.Matrix
import Verif.Model.Matrix
import Verif.Props.Matrix
import Verif.Spec.Callback
import Verif.Model.Callback
import Verif.Props.Callback
import Verif.Spec.Tokens
import Verif.Model.Tokens
import Verif.Props.Tokens
import Verif.Spec.Syslog
import Verif.Model.Syslog
import Verif.Props.Syslog
import Verif.Spec.StringCache
import Verif.Model.StringCache
import Verif.Props.StringCache
import Verif.Spec.StringMask
import Verif.Model.StringMask
import Verif.Props.StringMask
import Verif.Spec.FdStream
import Verif.Model.FdStream
import Verif.Props.FdStream
import Verif.Spec.Digest
import Verif.Model.Digest
import Verif.Props.Digest
import Verif.Spec.WvConfGen
import Verif.Model.WvConfGen
import Verif.Props.WvConfGen
import Verif.Spec.Listener
import Verif.Model.Listener
import Verif.Props.Listener
import Verif.Spec.BufStream
import Verif.Model.BufStream
import Verif.Props.BufStream
import Verif.Spec.StreamsDaemon
import Verif.Model.StreamsDaemon
import Verif.Props.StreamsDaemon
import Verif.Spec.Auth
import Verif.Model.Auth
import Verif.Props.Auth
import Verif.Spec.Pty
import Verif.Model.Pty
import Verif.Props.Pty
import Verif.Spec.Regex
import Verif.Model.Regex
import Verif.Props.Regex
import Verif.Spec.KeyAgree
import Verif.Model.KeyAgree
import Verif.Props.KeyAgree
import Verif.Spec.RsaKey
import Verif.Model.RsaKey
import Verif.Props.RsaKey
import Verif.Spec.CallbackGen
import Verif.Model.CallbackGen
import Verif.Props.CallbackGen
import Verif.Spec.ListIter
import Verif.Model.ListIter
import Verif.Props.ListIter
import Verif.Spec.ColorLog
import Verif.Model.ColorLog
import Verif.Props.ColorLog
import Verif.Spec.PushDir
import Verif.Model.PushDir
import Verif.Props.PushDir
import Verif.Spec.Modem
import Verif.Model.Modem
import Verif.Props.Modem
import Verif.Spec.ProcIter
import Verif.Model.ProcIter
import Verif.Props.ProcIter
import Verif.Spec.WatchObj
import Verif.Model.WatchObj
import Verif.Props.WatchObj
import Verif.Model.GlobDir
import Verif.Props.GlobDir
import Verif.Spec.Crash
import Verif.Model.Crash
import Verif.Props.Crash
import Verif.Spec.ConStream
import Verif.Model.ConStream
import Verif.Props.ConStream
import Verif.Spec.SelfRun
import Verif.Model.SelfRun
import Verif.Props.SelfRun
import Verif.Spec.FsTree
import Verif.Model.FsTree
import Verif.Props.FsTree
import Verif.Spec.Wrap
import Verif.Model.Wrap
import Verif.Props.Wrap
import Verif.Spec.ShmZone
import Verif.Model.ShmZone
import Verif.Props.ShmZone
import Verif.Spec.Loopback
import Verif.Model.Loopback
import Verif.Props.Loopback
import Verif.Spec.MagicLoop
import Verif.Model.MagicLoop
import Verif.Props.MagicLoop
import Verif.Spec.CircleMem
import Verif.Model.CircleMem
import Verif.Props.CircleMem
import Verif.Spec.RawIp
import Verif.Model.RawIp
import Verif.Props.RawIp
