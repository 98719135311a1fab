import Verif.Basic
import Verif.Mem
import Verif.Arrays.Model
import Verif.Arrays.Spec
import Verif.Arrays.Lemmas
import Verif.Arrays.Props
import Verif.Str.Search
import Verif.Str.SearchSpec
import Verif.Str.SearchLemmas
import Verif.Str.SearchProps
import Verif.Str.Split
import Verif.Str.SplitLemmas
import Verif.Str.SplitProps
import Verif.Str.Base64
import Verif.Str.Base64Spec
import Verif.Str.Base64Lemmas
import Verif.Str.Base64Props
import Verif.Str.Sort
import Verif.Str.SortProps
import Verif.Str.Misc
import Verif.Str.MiscSpec
import Verif.Str.MiscLemmas
import Verif.Str.MiscProps
import Verif.Deque.Model
import Verif.Deque.Spec
import Verif.Deque.Lemmas
import Verif.Deque.Begun
import Verif.Deque.Seq
import Verif.Deque.Props
import Verif.Deque.Last
import Verif.Sched.Queue
import Verif.Sched.QueueLemmas
import Verif.Sched.QueueProps
import Verif.Sched.Sorted
import Verif.Sched.Sleep
import Verif.Sched.SleepSpec
import Verif.Sched.SleepLemmas
import Verif.Sched.SleepProps
import Verif.Sched.Timer
import Verif.Sched.Once
import Verif.Sched.Callback
import Verif.Sched.TimerProps
import Verif.Wheel.Model
import Verif.Wheel.Bits
import Verif.Wheel.Spec
import Verif.Wheel.Lemmas
import Verif.Wheel.Loops
import Verif.Wheel.Run
import Verif.Wheel.Props
import Verif.Fd.UserData
import Verif.Fd.Blocking
import Verif.Proc.SpawnPipes
import Verif.Proc.InputEnd
import Verif.Fd.Props
import Verif.Except.Props
import Verif.Except.GuardProps
import Verif.Except.Protect
import Verif.Except.Tasks
import Verif.Except.Signals
import Verif.Except.Scratch
import Verif.Io.Alloc
import Verif.Io.Spin
import Verif.Io.Clock
import Verif.Io.Write
import Verif.Io.Pseudo
import Verif.Io.PseudoRace
import Verif.Io.SigRace
import Verif.Io.Env
import Verif.Io.Getopt
import Verif.Io.Num
import Verif.Io.Addr
import Verif.Io.Ip
import Verif.Uri.Props
import Verif.Uri.Free
import Verif.Future.QueueProps
import Verif.Future.WaitProps
import Verif.Future.Value
import Verif.Future.Affinity
import Verif.Future.ThreadLocal
import Verif.Future.Reuse
import Verif.Life.Model
import Verif.Except.Trying
import Verif.Future.PromiseProps
import Verif.Tasks.ResultsProps
import Verif.Sched.LoopProps
import Verif.Sched.Requeue
import Verif.Tasks.GeneratorProps
import Verif.Tasks.GroupsProps
import Verif.Tasks.Pool
import Verif.Tasks.Start
import Verif.Kq.Props
import Verif.Fs.CallProps
import Verif.Watch.TableProps
import Verif.Watch.DeliverProps
import Verif.Watch.Tasks
import Verif.Watch.Walk
import Verif.Proc.StreamProps
import Verif.Proc.WaitProps
import Verif.Proc.SpawnProps
import Verif.Proc.Finish
import Verif.Proc.Time
import Verif.Arrays.Item
import Verif.Str.PathProps
import Verif.Str.CopyProps
import Verif.Udp.Unwind
import Verif.Udp.Model
import Verif.Udp.Props
import Verif.Wait.Props
import Verif.Io.Host
import Verif.Tls.Props
import Verif.Tls.Names
import Verif.Tls.Bind
import Verif.Tls.Eof
import Verif.Tls.Machine
import Verif.Tls.Trust
import Verif.Sock.Open
import Verif.Sock.Kind
import Verif.Sock.Misc
import Verif.Rp.Classes
import Verif.Rp.Sizes
import Verif.Rp.Block
import Verif.Rp.Align
import Verif.Rp.Heap
import Verif.Rp.HeapInv
import Verif.Rp.HeapProps
import Verif.Rp.Spans
import Verif.Rp.Cache
import Verif.Rp.CacheInv
import Verif.Rp.CacheStep
import Verif.Rp.CacheProps
import Verif.Rp.Threads
import Verif.Rp.AlignRealloc
import Verif.Rp.PosixAlign
import Verif.Rp.Links
import Verif.Rp.Finalize
import Verif.Rp.Deferred
import Verif.Rp.Stack
import Verif.Rp.Free
import Verif.Wepoll.BaseSocket
import Verif.Wepoll.Errors
import Verif.Wepoll.Init
import Verif.Wepoll.Tree
import Verif.Wepoll.TreeRep
import Verif.Wepoll.TreeAdd
import Verif.Wepoll.TreeDel
import Verif.Wepoll.TreeProps
import Verif.Wepoll.Queue
import Verif.Wepoll.Port
import Verif.Wepoll.PortInv
import Verif.Wepoll.PortStep
import Verif.Wepoll.PortFeed
import Verif.Wepoll.PortProps
import Verif.Wepoll.Handles
import Verif.Wepoll.HandlesProps
import Verif.Wepoll.Timeout
import Verif.Wepoll.TimeoutProps
import Verif.Switch.Bytes
import Verif.Switch.X86
import Verif.Switch.Blocks
import Verif.Switch.Tasks
import Verif.Switch.Returned
import Verif.Switch.SysV
import Verif.Switch.SysVProps
import Verif.Switch.I386
import Verif.Switch.I386Props
import Verif.Switch.Win64
import Verif.Switch.Win64Props
import Verif.Switch.A64
import Verif.Switch.A64Run
import Verif.Switch.A64Props
import Verif.Switch.Entry
import Verif.Switch.Stack
import Verif.Switch.Frames
import Verif.Switch.SigTasks
import Verif.Win.Uname
import Verif.Win.Names
import Verif.Win.NamesSpec
import Verif.Win.NamesProps
import Verif.Win.File
import Verif.Win.FileProps
import Verif.Win.Open
import Verif.Win.OpenProps
import Verif.Win.Route
import Verif.Win.RouteProps
import Verif.Win.Child
import Verif.Win.ChildProps
import Verif.Win.Pair
import Verif.Win.PairProps
import Verif.Win.Dirent
import Verif.Win.EnvBlock
import Verif.Win.CmdLine
import Verif.Win.ExecWait
import Verif.Kq.Update
import Verif.Kq.UpdateProps
import Verif.Tasks.Count
import Verif.Tasks.CountProps
import Verif.Tasks.PoolMain
import Verif.Tasks.PoolMainProps
import Verif.Tasks.Place
import Verif.Pth.Barrier
import Verif.Pth.BarrierProps
import Verif.Pth.Once
import Verif.Pth.Cancel
import Verif.Pth.Keys
import Verif.Pth.KeysProps
import Verif.Pth.Life
import Verif.Pth.LifeProps
import Verif.Pth.Attr
import Verif.Pth.AttrProps
import Verif.Pth.Timed
import Verif.Win.Waitpid
import Verif.Win.Monitor
import Verif.Win.TlsKeys
import Verif.Str.ItoaBase
import Verif.Win.Fifo
import Verif.Future.Defer
import Verif.Future.Spread
import Verif.Win.Atomics
import Verif.Tls.Keys
import Verif.Tls.Errors
import Verif.Except.Terminate
import Verif.Except.Seh
import Verif.Win.WsaErr
import Verif.Win.Signals
import Verif.Win.Watches
import Verif.Win.Grow
import Verif.Win.Dispatch
import Verif.Win.StdHandles
import Verif.Win.ExecRace
import Verif.Win.Loops
import Verif.Win.Shutdown
import Verif.Tls.Text
import Verif.Io.Fifo
import Verif.Io.FdType
import Verif.Io.Fprintf
import Verif.Io.HostByName
import Verif.Tls.CloseRace
import Verif.Io.Handlers
import Verif.Kq.Monitor
import Verif.Kq.SyncRead
