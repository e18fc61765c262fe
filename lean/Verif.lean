import Verif.Apc
import Verif.ApcProps
import Verif.ArraySet
import Verif.ArraySetProps
import Verif.ArrayT
import Verif.ArrayTFind
import Verif.ArrayTProps
import Verif.AutoArray
import Verif.AutoArrayProps
import Verif.Autoflush
import Verif.AutoflushProps
import Verif.AvlIter
import Verif.AvlIterProps
import Verif.AvlTree
import Verif.AvlTreeProps
import Verif.BTree
import Verif.BTreeIter
import Verif.BTreeIterProps
import Verif.BTreeProps
import Verif.BTreeRemove
import Verif.BTreeRemoveProps
import Verif.Base16
import Verif.Base16Props
import Verif.Base32
import Verif.Base32Props
import Verif.Base64
import Verif.Base64Filter
import Verif.Base64FilterProps
import Verif.Base64Props
import Verif.Base85
import Verif.Base85Props
import Verif.Basic
import Verif.BinFormat
import Verif.BinFormatProps
import Verif.BinJson
import Verif.BinJsonProps
import Verif.BufAlloc
import Verif.BufAllocProps
import Verif.Buffer
import Verif.BufferProps
import Verif.Cluster
import Verif.ClusterInv
import Verif.ClusterProps
import Verif.ClusterStep
import Verif.CmdLine
import Verif.CmdLineProps
import Verif.CompressNumb
import Verif.CompressNumbProps
import Verif.Conv
import Verif.ConvInst
import Verif.ConvProps
import Verif.Counters
import Verif.CountersProps
import Verif.Crc32
import Verif.Crc32Props
import Verif.Deque
import Verif.DequeProps
import Verif.Digest
import Verif.DigestSpec
import Verif.Dispatch
import Verif.DispatchProps
import Verif.Distrib
import Verif.DistribProps
import Verif.Epoll
import Verif.EpollProps
import Verif.FastLock
import Verif.FastLockProps
import Verif.FdSelect
import Verif.FdSelectProps
import Verif.FilePath
import Verif.FilePathProps
import Verif.FilterIter
import Verif.FilterIterProps
import Verif.Gate
import Verif.GateProps
import Verif.Generator
import Verif.GeneratorProps
import Verif.Heap
import Verif.HeapProps
import Verif.Http
import Verif.HttpHeadProps
import Verif.HttpProps
import Verif.IOBuffer
import Verif.IOBufferProps
import Verif.InBlock
import Verif.InBlockProps
import Verif.IndexMap
import Verif.IndexMapProps
import Verif.Ini
import Verif.IniMapProps
import Verif.IniProps
import Verif.IterOps
import Verif.IterOpsProps
import Verif.Json
import Verif.JsonFuel
import Verif.JsonParse
import Verif.JsonProps
import Verif.JsonSpec
import Verif.LevelLock
import Verif.LevelLockProps
import Verif.LinkedList
import Verif.LinkedListProps
import Verif.LockPair
import Verif.LockPairProps
import Verif.Lzw
import Verif.LzwBits
import Verif.LzwProps
import Verif.Lzwp
import Verif.LzwpBad
import Verif.LzwpProps
import Verif.MapReduce
import Verif.MapReduceProps
import Verif.Md5Props
import Verif.MemFile
import Verif.MemFileProps
import Verif.Merge
import Verif.MergeProps
import Verif.MicroLock
import Verif.MicroLockProps
import Verif.MsgQueue
import Verif.MsgQueueProps
import Verif.MultiLock
import Verif.MultiLockProps
import Verif.Multibyte
import Verif.MultibyteProps
import Verif.Mutex
import Verif.MutexProps
import Verif.NamedEnum
import Verif.NamedEnumProps
import Verif.NetListen
import Verif.NetListenProps
import Verif.NumText
import Verif.NumTextProps
import Verif.OldSched
import Verif.OldSchedProps
import Verif.OptVal
import Verif.OptValProps
import Verif.OwnedPtr
import Verif.OwnedPtrProps
import Verif.ParExec
import Verif.ParExecInv
import Verif.ParExecLive
import Verif.ParExecProps
import Verif.Placeholder
import Verif.PlaceholderProps
import Verif.PoolAlloc
import Verif.PoolAllocProps
import Verif.Promise
import Verif.PromiseInv
import Verif.PromiseInvB
import Verif.PromiseInvC
import Verif.PromiseInvD
import Verif.PromiseProps
import Verif.PromiseRef
import Verif.PromiseRefProps
import Verif.Query
import Verif.QueryProps
import Verif.QueueExec
import Verif.QueueExecProps
import Verif.Random
import Verif.RandomProps
import Verif.Rational
import Verif.RationalProps
import Verif.RefCnt
import Verif.RefCntInv
import Verif.RefCntProps
import Verif.RefCntStep
import Verif.ResPool
import Verif.ResPoolProps
import Verif.RingList
import Verif.RingListProps
import Verif.SList
import Verif.SListProps
import Verif.Scopes
import Verif.ScopesProps
import Verif.Semaphore
import Verif.SemaphoreProps
import Verif.Sha1Props
import Verif.SharedPtrProps
import Verif.SharedRes
import Verif.SharedResProps
import Verif.SmallMem
import Verif.SmallMemProps
import Verif.SortFilter
import Verif.SortFilterProps
import Verif.SpinLock
import Verif.SpinLockProps
import Verif.StrCmp
import Verif.StrCmpProps
import Verif.StrPool
import Verif.StrPoolProps
import Verif.StrToD
import Verif.StrToDProps
import Verif.StringCore
import Verif.StringCoreProps
import Verif.SyncPt
import Verif.SyncPtProps
import Verif.TextFmt
import Verif.TextFmtProps
import Verif.TextIn
import Verif.TextInProps
import Verif.TextPat
import Verif.TextPatCases
import Verif.TextPatJump
import Verif.TextPatProps
import Verif.TextPatRange
import Verif.Time
import Verif.TimeProps
import Verif.Tls
import Verif.TlsProps
import Verif.UrlEncode
import Verif.UrlEncodeProps
import Verif.UrlFilter
import Verif.UrlFilterProps
import Verif.Utf
import Verif.UtfFilter
import Verif.UtfFilterProps
import Verif.UtfProps
import Verif.Variant
import Verif.VariantProps
import Verif.WeakRef
import Verif.WeakRefProps
