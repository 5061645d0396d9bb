import Verif.Basic
import Verif.Core.Model
import Verif.Core.Eff
import Verif.Core.Free
import Verif.Core.WF
import Verif.Core.Spec
import Verif.Core.Queue
import Verif.Core.Log
import Verif.Core.Demo
import Verif.Core.Frag
import Verif.Core.Cl
import Verif.Core.Gen
import Verif.Core.Top
import Verif.Sync.Model
import Verif.Sync.Cases
import Verif.Sync.Stack
import Verif.Sync.Base
import Verif.Sync.Ty
import Verif.Sync.Guard
import Verif.Sync.Set
import Verif.Sync.Demo
import Verif.Sync.Act
import Verif.Props.Registry
import Verif.Props.Tasks
import Verif.Core.Ctl
import Verif.Core.FragDemo
import Verif.Props.Wait
import Verif.Props.Calls
import Verif.Props.Results
import Verif.Props.Lifecycle
import Verif.Props.Count
import Verif.Props.Future
import Verif.Core.Keep
import Verif.Core.Lin
import Verif.Sync.Sem
import Verif.Sync.Deliver
import Verif.Props.Cv
import Verif.Sync.Nest
import Verif.Props.Notify
import Verif.Props.Ready
import Verif.Props.Mutex
import Verif.Core.Post
import Verif.Sync.Lin
import Verif.Sync.Cont
import Verif.Sync.Place
import Verif.Props.Launch
import Verif.Sync.Mv
import Verif.Sync.Out
import Verif.Sync.Asy
import Verif.Props.Outcome
import Verif.Visit.Model
import Verif.Props.Visit
import Verif.Obj.Model
import Verif.Obj.Inv
import Verif.Obj.Own
import Verif.Obj.Pair
import Verif.Obj.Reg
import Verif.Core.Called
import Verif.Props.Obj
import Verif.Sync.ATy
import Verif.Sync.ALin
import Verif.Sync.ARet
import Verif.Sync.ALock
import Verif.When.Model
import Verif.When.Cases
import Verif.When.Ty0
import Verif.When.Lin
import Verif.Sync.ASet
import Verif.Sync.AHold
import Verif.Sync.Stuck
import Verif.When.Ret
import Verif.When.Inv
import Verif.When.Hold
import Verif.When.Done
import Verif.When.Demo
import Verif.Props.When
import Verif.Sync.Call
import Verif.Sync.AMem
import Verif.Sync.AppMem
import Verif.Pool.Model
import Verif.Pool.Cases
import Verif.Pool.Base
import Verif.Pool.Sec
import Verif.Pool.Spec
import Verif.Pool.Ty
import Verif.Pool.Inv
import Verif.Pool.Jobs
import Verif.Pool.Acc
import Verif.Sync.Pk
import Verif.Pool.Hist
import Verif.Pool.Once
import Verif.Pool.Pkg
import Verif.Sync.AFut
import Verif.Pool.Over
import Verif.Pool.Runs
import Verif.Sync.AGo
import Verif.Pool.Cut
import Verif.Pool.Demo
import Verif.Pool.Ret
import Verif.Props.PoolJobs
import Verif.Props.PoolWait
import Verif.Props.PoolFuture
import Verif.Props.PoolLocks
import Verif.Props.PoolWork
import Verif.Core.TopOnly
import Verif.Core.NewEv
import Verif.Pool.Idle
import Verif.Pool.Quiet
import Verif.Props.PoolIdle
import Verif.Props.PoolCalls
import Verif.Core.Stay
import Verif.Sync.Waits
import Verif.Det.Model
import Verif.Det.Inv
import Verif.Det.Demo
import Verif.Props.Det
import Verif.When.Call
import Verif.Props.Function
import Verif.Props.WhenCalls
import Verif.Core.Gone
import Verif.Pool.Dtor
import Verif.Pool.DtorCall
import Verif.Props.PoolDtor
import Verif.Sync.AHand
import Verif.Fut.Model
import Verif.Fut.Inv
import Verif.Fut.Demo
import Verif.Props.Fut
import Verif.Core.Live
import Verif.Props.Live
import Verif.Sync.Live
import Verif.Props.LiveFut
import Verif.Sync.Took
import Verif.Props.LiveWait
import Verif.Core.Timed
import Verif.Props.LiveTimed
import Verif.Props.LiveTimedSync
import Verif.Core.DispTop
import Verif.Props.LiveNotify
import Verif.Props.LiveSet
import Verif.Props.LiveEnd
import Verif.Props.LiveJoin
import Verif.Props.LivePoolDtor
import Verif.Props.LiveShut
import Verif.Props.LiveUntil
import Verif.Props.LivePoolWait
import Verif.Props.LivePool
import Verif.Props.CvReturn
import Verif.Abs.Model
import Verif.Abs.Demo
import Verif.Props.Until
import Verif.Cap.Model
import Verif.Props.Capture
import Verif.Props.MainThread
import Verif.Props.LivePoolOps
import Verif.Props.LivePoolJob
import Verif.Props.LiveCalls
import Verif.Props.LiveIdle
import Verif.Props.LiveThen
import Verif.Props.LiveBreak
import Verif.Props.LiveTask
import Verif.Props.LiveQuick
