import Verif.Base.Lts
import Verif.Sync.LockSpec
import Verif.Sync.Spinlock
import Verif.Sync.SpinlockProps
import Verif.Sync.Mutex
import Verif.Sync.MutexInv
import Verif.Base.Sum
import Verif.Sync.MutexOrder
import Verif.Sync.MutexProps
import Verif.Sync.RecMutex
import Verif.Sync.RecMutexInv
import Verif.Sync.RecMutexOrder
import Verif.Sync.RecMutexProps
import Verif.Sync.RwSpec
import Verif.Sync.SharedMutex
import Verif.Sync.RemoveIf
import Verif.Sync.SharedMutexInv
import Verif.Sync.SharedMutexSim
import Verif.Sync.SharedMutexProps
import Verif.Sync.TimedTry
import Verif.Sync.TimedTryProps
import Verif.Sync.CvSpec
import Verif.Sync.Cv
import Verif.Sync.CvInv
import Verif.Sync.CvSim
import Verif.Sync.CvProps
import Verif.Monitor.Abs
import Verif.Monitor.Low
import Verif.Monitor.LowInv
import Verif.Monitor.Refine
import Verif.Monitor.Term
import Verif.Monitor.AbsTerm
import Verif.Monitor.Lib
import Verif.Monitor.Full
import Verif.Monitor.Sys
import Verif.Monitor.FullObjs
import Verif.Sync.Semaphore
import Verif.Sync.SemaphoreProps
import Verif.Sync.Latch
import Verif.Sync.LatchProps
import Verif.Sync.WaitGroup
import Verif.Sync.WaitGroupProps
import Verif.Sync.Barrier
import Verif.Sync.BarrierInv
import Verif.Sync.BarrierProps
import Verif.Sync.CallOnce
import Verif.Sync.CallOnceProps
import Verif.Chan.Chan
import Verif.Chan.ChanInv
import Verif.Chan.ChanLive
import Verif.Chan.ChanSync
import Verif.Chan.ChanSpec
import Verif.Chan.ChanProps
import Verif.Machine.X86
import Verif.Machine.Switch
import Verif.Machine.SwitchProps
import Verif.Machine.SharedStack
import Verif.Machine.Preempt
import Verif.Util.Event
import Verif.Util.EventProps
import Verif.Util.Any
import Verif.Util.Local
import Verif.Io.Io
import Verif.Io.IoProps
import Verif.Timer.Timer
import Verif.Timer.TimerInv
import Verif.Timer.TimerProps
import Verif.Timer.Locks
import Verif.Timer.Sleep
import Verif.Timer.Duration
import Verif.Sched.Env
import Verif.Sched.EnvInv
import Verif.Sched.EnvProps
import Verif.Sched.Migrate
import Verif.Sched.Wait
import Verif.Sched.WaitInv
import Verif.Sched.WaitProps
import Verif.Sched.WaitLive
import Verif.Sched.StateManager
import Verif.Sched.Priority
import Verif.Sched.Manager
import Verif.Sched.EnvLife
import Verif.Sched.LockCount
import Verif.Sched.Life
import Verif.Sched.Idle
import Verif.Sched.IdleProps
import Verif.Sched.Stacks
import Verif.Sched.Handle
import Verif.Sched.Shutdown
import Verif.Sched.Sections
import Verif.Pipe.Pipe
import Verif.Pipe.PipeInv
import Verif.Pipe.PipeProps
import Verif.Pipe.PipeLive
import Verif.Pipe.Throw
import Verif.Pipe.Real
import Verif.Pipe.RealSim
import Verif.Pipe.RealStep
import Verif.Pipe.RealProps
import Verif.Pipe.RealLive
import Verif.Sched.Inversion
import Verif.Io.Fd
import Verif.Sched.Compose
import Verif.Sched.ComposeObjs
import Verif.Sched.ComposeProps
import Verif.Sched.ComposeProg
import Verif.Sched.ComposePipe
import Verif.Sched.ComposeMany
import Verif.Sched.ComposeManyProps
import Verif.Sched.ComposeFair
import Verif.Monitor.Life
import Verif.Monitor.LifeProps
import Verif.Sched.WakeFree
import Verif.Sched.WakeFreeObjs
import Verif.Base.Hb
import Verif.Base.Prog
import Verif.Sched.Races
import Verif.Sched.Publish
import Verif.Sync.MutexHb
import Verif.Base.LockOrder
import Verif.Sched.LockOrder
import Verif.Pipe.SrcLife
import Verif.Sched.Create
import Verif.Sched.Crash
import Verif.Chan.Throws
import Verif.Sync.TimedLock
import Verif.Io.Errno
import Verif.Monitor.Serial
import Verif.Sync.Starve
import Verif.Util.Static
import Verif.Machine.Mmap
import Verif.Machine.Alloc
import Verif.Io.FdSet
import Verif.Sync.AtExit
import Verif.Util.Report
import Verif.Sched.Given
import Verif.Chan.Ops
import Verif.Sync.Ordered
import Verif.Sched.ComposeOrdered
import Verif.Monitor.Visible
import Verif.Monitor.VisibleObjs
import Verif.Sched.StartHb
import Verif.Monitor.SemSection
import Verif.Sync.RwHb
import Verif.Io.Talk
import Verif.Sched.ThreadEnvs
import Verif.Sched.JoinHb
import Verif.Sched.WaitGraph
import Verif.Sync.RwOrdered
import Verif.Sync.RecOrdered
import Verif.Sched.BoundEnv
import Verif.Sched.Options
import Verif.Io.ClientErr
import Verif.Util.Defer
