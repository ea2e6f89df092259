import Verif.Base.Prog

/-!
# C107: the library's shared data has no data races

Every function of the core of the library that takes a lock or accesses shared data, written as the sequence of its lock operations and of
its accesses to data that more than one thread uses. The lists are in the order of the code. Loops are lists of any length, given as
parameters; of branches the longest is written down, and `Lib.drop` and `Lib.skip` leave out accesses and calls. Data that belongs to one
thread (registers, stacks, `shared_stack_switch_info__`, `thread_local`s), atomic members (`curr_ctx__`, `count__`) and data fixed before an
object is shared (`config__`, `entry__`, `interval__`, `expire_type__`, `idle_ctx__`) are left out. `ret__`, and
`exception__` before the end of a coroutine, are the subject of `C107_result_published`.
-/

namespace Verif.Races

open Verif.Hb Verif.Prog Op

/-- The locks of the library: of the coroutine `c`, the env `e`, the timer `t`, the manager, the condition variable `v`, the mutex `m`, the
event `v`. (co_flag_manager.h:15, co_state_manager.h:13, co_ctx.h:40, 44, 55, co_env.h:78, 85, 86, co_timer.h:44, co_manager.h:31, 43, 47,
co_condition_variable.h:29, `spinlock__` of co_mutex.h, co_recursive_mutex.h and co_shared_mutex.h, co_event.h:21) -/
inductive Lk
  | flagC (c : Nat) | flagE (e : Nat) | stC (c : Nat) | stE (e : Nat)
  | prio (c : Nat) | wait (c : Nat) | fin (c : Nat)
  | list (e : Nat) | min (e : Nat) | sched (e : Nat)
  | tmr (t : Nat) | queue | envs | dur
  | cv (v : Nat) | spin (m : Nat) | evt (v : Nat)
  deriving DecidableEq, Repr

/-- All but the spinlocks are recursive mutexes. (Concerns co_manager.cpp:23-560, co_env.cpp:26-833.) -/
def re : Lk → Bool
  | .cv _ => false
  | .spin _ => false
  | _ => true

/-- The shared data: `flags__`, `state__` of coroutine and env, `priority__`, `wait_data__.resource`, `all_normal_ctx__`, `ctx_count__`,
`min_priority__`, `status__`, `expire_time__`, `callback__` of a timer, `timer_queue__`, `normal_set`, `expired_set`, `waiters__`, owner and
waiting queue of a mutex (`owner__`, `lock_count__`, `owners__`, `lock_type__` are one), `cb_list__`, `current_handler__`; and `timeout__`,
`timer_duration__`, `base_env_count`, `max_env_count`, `default_shared_stack_size__`, `clean_up__`, `exception__`, `schedule_thread_tid__`,
`env__`. (Concerns co_manager.cpp:23-560, co_env.cpp:26-833.) -/
inductive Fd
  | flagsC (c : Nat) | flagsE (e : Nat) | stateC (c : Nat) | stateE (e : Nat)
  | prio (c : Nat) | waits (c : Nat)
  | lists (e : Nat) | count (e : Nat) | minPrio (e : Nat)
  | tStatus (t : Nat) | tExpire (t : Nat) | tCall (t : Nat) | timers
  | normal | expired
  | waiters (v : Nat) | obj (m : Nat) | deque (m : Nat) | cbs (v : Nat) | handler (v : Nat)
  | timeout (v : Nat) | duration | base | max | sharedSize | cleanUp | exc (c : Nat) | tid (e : Nat) | env (c : Nat)
  deriving DecidableEq, Repr

/-- Which lock guards what. `info`: do programs use the functions that print the state of the library (`ctx_info`, `env_info`,
`manager_info`)? These read priorities without a lock. (Concerns co_manager.cpp:23-560, co_env.cpp:26-833.) -/
def G (info : Bool) : Fd → Option Lk
  | .flagsC c => some (.flagC c)
  | .flagsE e => some (.flagE e)
  | .stateC c => some (.stC c)
  | .stateE e => some (.stE e)
  | .prio c => if info then none else some (.prio c)
  | .waits c => some (.wait c)
  | .lists e => some (.list e)
  | .count e => some (.list e)
  | .minPrio e => some (.min e)
  | .tStatus t => some (.tmr t)
  | .tExpire t => some (.tmr t)
  | .tCall t => some (.tmr t)
  | .timers => some .queue
  | .normal => some .envs
  | .expired => some .envs
  | .waiters v => some (.cv v)
  | .obj m => some (.spin m)
  | .deque m => some (.spin m)
  | .cbs v => some (.evt v)
  | .handler v => some (.evt v)
  | _ => none

/-- A piece of code. (Concerns co_manager.cpp:23-560, co_env.cpp:26-833.) -/
abbrev Code := List (Op Lk Fd)

/-! ## Flags, states, events -/

/-- `set_flag`, `unset_flag` of a coroutine (co_flag_manager.h:18-27). -/
def setFlagC (c : Nat) : Code := [acq (.flagC c), rd (.flagsC c), wr (.flagsC c), rel (.flagC c)]
/-- `test_flag` of a coroutine (co_flag_manager.h:28-32). -/
def testFlagC (c : Nat) : Code := [acq (.flagC c), rd (.flagsC c), rel (.flagC c)]
/-- `set_flag`, `unset_flag` of an env (co_flag_manager.h:18-27). -/
def setFlagE (e : Nat) : Code := [acq (.flagE e), rd (.flagsE e), wr (.flagsE e), rel (.flagE e)]
/-- `test_flag` of an env (co_flag_manager.h:28-32). -/
def testFlagE (e : Nat) : Code := [acq (.flagE e), rd (.flagsE e), rel (.flagE e)]
/-- `set_state` of a coroutine (co_state_manager.h:21-29). -/
def setStateC (c : Nat) : Code := [acq (.stC c), rd (.stateC c), wr (.stateC c), rel (.stC c)]
/-- `state` of a coroutine (co_state_manager.h:31-36). -/
def getStateC (c : Nat) : Code := [acq (.stC c), rd (.stateC c), rel (.stC c)]
/-- `co_env::set_state` (co_env.cpp:644-648, co_state_manager.h:21-29). -/
def setStateE (e : Nat) : Code := [acq (.sched e), acq (.stE e), rd (.stateE e), wr (.stateE e), rel (.stE e), rel (.sched e)]
/-- `state` of an env (co_state_manager.h:31-36). -/
def getStateE (e : Nat) : Code := [acq (.stE e), rd (.stateE e), rel (.stE e)]
/-- `co_event::sub` (co_event.h:30-36). -/
def sub (v : Nat) : Code := [acq (.evt v), rd (.handler v), wr (.cbs v), rd (.handler v), wr (.handler v), rel (.evt v)]
/-- `co_event::unsub` (co_event.h:38-43). -/
def unsub (v : Nat) : Code := [acq (.evt v), wr (.cbs v), rel (.evt v)]
/-- `co_event::pub` with callbacks that do `cb` (co_event.h:45-53). -/
def pub (v : Nat) (cb : Code) : Code := [acq (.evt v), rd (.cbs v)] ++ cb ++ [rd (.cbs v), rel (.evt v)]

/-! ## Coroutines -/

/-- `co_ctx::priority` (co_ctx.cpp:85-89). -/
def priority (c : Nat) : Code := [acq (.prio c), rd (.prio c), rel (.prio c)]
/-- `update_min_priority__` (co_env.cpp:614-621). -/
def updMin (e : Nat) : Code := [acq (.min e), rd (.minPrio e), wr (.minPrio e), rel (.min e)]
/-- `wake_up` (co_env.cpp:660-665). The guard only counts. -/
def wakeUp (e : Nat) : Code := [acq (.sched e), rel (.sched e)]
/-- The subscriber of `priority_changed` and `handle_priority_changed` (co_manager.cpp:82-84, co_env.cpp:489-500). -/
def handlePrio (e c : Nat) : Code :=
  [rd (.env c), acq (.list e), rd (.lists e), wr (.lists e)] ++ priority c ++ [wr (.lists e)] ++ priority c ++ updMin e ++ [rel (.list e)]
/-- `set_priority` of the coroutine `c` of the env `e`; `v` is the event `priority_changed` (co_ctx.cpp:91-119, co_manager.cpp:80-85). -/
def setPrio (c e v : Nat) : Code :=
  testFlagC c ++ [acq (.prio c), rd (.prio c), wr (.prio c), rd (.env c), rd (.prio c)] ++ pub v (handlePrio e c) ++ [rel (.prio c)]
/-- `can_schedule` (co_ctx.cpp:141-144). -/
def canSchedule (c : Nat) : Code := getStateC c ++ testFlagC c
/-- `can_move` (co_ctx.cpp:166-169). -/
def canMove (c : Nat) : Code := getStateC c ++ getStateC c ++ testFlagC c ++ testFlagC c
/-- `enter_wait_resource_state` (co_ctx.cpp:181-190). -/
def enterWait (c : Nat) : Code := [acq (.wait c), wr (.waits c)] ++ setFlagC c ++ [rel (.wait c)]
/-- `leave_wait_resource_state` of the coroutine `c` of the env `e` (co_ctx.cpp:192-207, co_env.cpp:558-565). -/
def leaveWait (c e : Nat) : Code :=
  [acq (.wait c), wr (.waits c), rd (.waits c)] ++ setFlagC c ++ [rel (.wait c)] ++ testFlagC c ++ [rd (.env c)] ++ priority c ++ updMin e ++
    [rd (.env c)] ++ wakeUp e
/-- The end of `real_entry`; `v` is the event `finished`, whose callbacks do `cb` (co_ctx.cpp:77-82). -/
def finish (c v : Nat) (cb : Code) : Code := [acq (.fin c)] ++ setStateC c ++ [rel (.fin c)] ++ pub v cb ++ [rd (.env c)]
/-- `check_and_rethrow_exception` (co_ctx.cpp:131-139). -/
def checkExc (c : Nat) : Code := [rd (.exc c), rd (.exc c), wr (.exc c)]
/-- `ctx_info` (co_ctx.cpp:219-289). -/
def ctxInfo (c : Nat) : Code := [rd (.prio c), rd (.env c), rd (.exc c)] ++ testFlagC c ++ getStateC c

/-! ## Envs -/

/-- `workload`, `ctx_count`, `has_ctx` (co_env.cpp:189-199, 623-627). -/
def workload (e : Nat) : Code := [acq (.list e), rd (.count e), rel (.list e)]
/-- `move_ctx_to_here` (co_env.cpp:80-97). -/
def moveHere (e c : Nat) : Code :=
  getStateE e ++ getStateE e ++ [wr (.env c), acq (.list e)] ++ priority c ++ [wr (.lists e), rd (.count e), wr (.count e), rel (.list e)] ++ priority c ++
    updMin e ++ setStateE e ++ wakeUp e
/-- `add_ctx` (co_env.cpp:58-78). -/
def addCtx (e c : Nat) : Code := getStateE e ++ getStateE e ++ testFlagC c ++ moveHere e c
/-- `remove_ctx` (co_env.cpp:331-340). -/
def removeCtx (e c : Nat) : Code :=
  [acq (.list e)] ++ priority c ++ [wr (.lists e), rd (.count e), wr (.count e), rel (.list e)]
/-- `remove_detached_ctx__` (co_env.cpp:201-214, 550-556). -/
def removeDetached (e : Nat) (cs : List Nat) : Code :=
  [acq (.list e), rd (.lists e), rel (.list e)] ++ cs.flatMap fun c => getStateC c ++ testFlagC c ++ removeCtx e c
/-- `can_schedule__` (co_env.cpp:502-512). -/
def canScheduleE (e : Nat) (cs : List Nat) : Code :=
  [acq (.list e), acq (.min e), rd (.minPrio e), rd (.lists e)] ++ cs.flatMap canSchedule ++ [rel (.min e), rel (.list e)]
/-- `choose_ctx_from_normal_list__` (co_env.cpp:527-548). -/
def choose (e : Nat) (cs : List Nat) : Code :=
  [acq (.list e), acq (.min e), rd (.minPrio e), rd (.lists e)] ++ cs.flatMap canSchedule ++
    [wr (.lists e), wr (.minPrio e), rel (.min e), rel (.list e)]
/-- `sleep_if_need__`, with one round per element of `rs`; waiting unlocks and locks (co_env.cpp:667-684, 519-525). -/
def sleepIfNeed (e c : Nat) (rs : List (List Nat)) : Code :=
  [acq (.sched e)] ++ rs.flatMap (fun cs => canScheduleE e cs ++ getStateE e ++ testFlagC c ++ [rel (.sched e), acq (.sched e)]) ++ [rel (.sched e)]
/-- `schedule_switch` from `c` to `d` (co_env.cpp:311-329, 216-309). -/
def scheduleSwitch (e c d : Nat) (cs : List Nat) (rs : List (List Nat)) : Code :=
  [acq (.sched e)] ++ removeDetached e cs ++ getStateE e ++ choose e cs ++ setFlagE e ++ setStateE e ++ [rel (.sched e)] ++
    sleepIfNeed e c rs ++ [acq (.sched e)] ++ getStateC c ++ setStateC c ++ setStateC d ++ testFlagC c ++ testFlagC d ++
    [rel (.sched e), acq (.sched e), rel (.sched e)]
/-- `take_all_movable_ctx`, `take_one_movable_ctx` (co_env.cpp:575-612). -/
def takeMovable (e : Nat) (cs : List Nat) : Code :=
  [acq (.list e), acq (.min e), acq (.sched e), rd (.minPrio e), rd (.lists e)] ++ cs.flatMap canMove ++
    [wr (.lists e), rd (.count e), wr (.count e), rel (.sched e), rel (.min e), rel (.list e)]
/-- `is_blocked` (co_env.cpp:514-517). -/
def isBlocked (e : Nat) : Code := getStateE e ++ getStateE e ++ testFlagE e
/-- `stop_schedule` (co_env.cpp:349-357). -/
def stopSchedule (e : Nat) : Code := testFlagE e ++ setStateE e ++ wakeUp e
/-- The start of `start_schedule_routine__` (co_env.cpp:388-392). -/
def startRoutine (e : Nat) : Code := [wr (.tid e)] ++ setFlagE e ++ setStateE e
/-- `env_info` (co_env.cpp:697-768). -/
def envInfo (e i : Nat) (cs : List Nat) : Code :=
  [acq (.sched e), acq (.list e), acq (.min e)] ++ testFlagE e ++ getStateE e ++ ctxInfo i ++
    [rd (.tid e), rd (.minPrio e), rd (.count e), rd (.lists e)] ++ cs.flatMap ctxInfo ++ [rel (.min e), rel (.list e), rel (.sched e)]

/-! ## Timers -/

/-- `expire_time`, `is_expired` (co_timer.cpp:105-109, 116-120). -/
def expireTime (t : Nat) : Code := [acq (.tmr t), rd (.tExpire t), rel (.tmr t)]
/-- `is_running` (co_timer.cpp:51-55). -/
def isRunning (t : Nat) : Code := [acq (.tmr t), rd (.tStatus t), rel (.tmr t)]
/-- `insert_timer_to_queue__`, `remove_timer_from_queue__`: the timer is compared with the timers `ts` (co_manager.cpp:493-505,
co_timer.cpp:136-139). -/
def queueOp (ts : List Nat) : Code := [acq .queue, rd .timers] ++ ts.flatMap expireTime ++ [wr .timers, rel .queue]
/-- `start` (co_timer.cpp:57-67, 87-98). -/
def tStart (t : Nat) (ts : List Nat) : Code :=
  [acq (.tmr t), rd (.tStatus t), wr (.tExpire t), wr (.tStatus t)] ++ queueOp ts ++ [rel (.tmr t)]
/-- `stop` (co_timer.cpp:69-79, 100-103). -/
def tStop (t : Nat) (ts : List Nat) : Code := [acq (.tmr t), rd (.tStatus t), wr (.tStatus t)] ++ queueOp ts ++ [rel (.tmr t)]
/-- `set_expire_callback` (co_timer.cpp:141-147). -/
def setCall (t : Nat) : Code := [acq (.tmr t), rd (.tCall t), wr (.tCall t), rel (.tmr t)]
/-- `run` with a callback that does `cb` (co_timer.cpp:122-129). -/
def tRun (t : Nat) (cb : Code) : Code := [acq (.tmr t), rd (.tCall t)] ++ cb ++ [rel (.tmr t)]
/-- `timer_info` (co_timer.cpp:149-177). -/
def timerInfo (t : Nat) : Code := [acq (.tmr t), rd (.tExpire t), rd (.tStatus t), rel (.tmr t)]

/-! ## The manager -/

/-- `create_env`; `v` is the event `task_finished` (co_manager.cpp:87-103, 73-78). -/
def createEnv (e v : Nat) : Code := [rd .cleanUp, rd .sharedSize] ++ sub v ++ setFlagE e ++ [acq .envs, wr .normal, rel .envs]
/-- `get_best_env__` over the envs `es`; it may create `e` (co_manager.cpp:23-71). -/
def getBest (es : List Nat) (e v : Nat) : Code :=
  [acq .envs, rd .normal] ++
    es.flatMap (fun e => getStateE e ++ getStateE e ++ testFlagE e ++ testFlagE e ++ workload e ++ workload e) ++ [rd .base] ++
    createEnv e v ++ [rel .envs]
/-- `create_and_schedule_ctx` of `c` on `e`; `v`: event `priority_changed` (co_manager.cpp:421-439, 80-85). -/
def createCtx (c e v : Nat) (es : List Nat) (e' v' : Nat) : Code := sub v ++ setFlagC c ++ getBest es e' v' ++ addCtx e c
/-- `remove_env__` (co_manager.cpp:153-159). -/
def removeEnv : Code := [acq .envs, wr .normal, wr .expired, rel .envs]
/-- `create_env_from_this_thread__` (co_manager.cpp:161-167). -/
def createFromThread (v : Nat) : Code := [acq .envs, rd .sharedSize] ++ sub v ++ [wr .normal, rel .envs]
/-- `set_clean_up__` (co_manager.cpp:178-195). -/
def setCleanUp (es : List Nat) : Code :=
  [acq .envs, wr .cleanUp, rd .normal] ++ es.flatMap (fun e => testFlagE e ++ removeEnv ++ stopSchedule e) ++ [rel .envs]
/-- One round of `clean_env_routine__` (co_manager.cpp:197-227); `destroy_env` is C91. -/
def cleanRound (es : List Nat) : Code :=
  [acq .envs, rd .cleanUp, rd .normal, rd .cleanUp] ++ es.flatMap (fun e => testFlagE e ++ removeEnv ++ stopSchedule e) ++
    [wr .normal, rel .envs, acq .envs, rd .expired, wr .expired, rel .envs]
/-- `force_schedule__` (co_manager.cpp:247-264); the thread's number is read in co_vos_gcc_x86_64.cpp:121. -/
def forceSchedule (es : List Nat) : Code :=
  [acq .envs, rd .cleanUp, rd .normal] ++ es.flatMap (fun e => isBlocked e ++ workload e ++ [rd (.tid e)] ++ setFlagE e) ++ [rel .envs]
/-- What `redistribute_ctx__` does with one env; the schedule lock is taken with `try_lock` (co_manager.cpp:280-300). -/
def collect (e : Nat) (cs : List Nat) : Code :=
  [acq (.sched e)] ++ isBlocked e ++ setStateE e ++ takeMovable e cs ++ setFlagE e ++ [rel (.sched e)]
/-- `redistribute_ctx__` (co_manager.cpp:266-306). -/
def redistribute (es cs : List Nat) (e' v' : Nat) : Code :=
  [acq .envs, rd .cleanUp, rd .normal] ++
    es.flatMap (fun e => collect e cs) ++ cs.flatMap (fun c => getBest es e' v' ++ moveHere e' c) ++ [rel .envs]
/-- `destroy_redundant_env__` (co_manager.cpp:308-335). -/
def destroyRedundant (es : List Nat) : Code :=
  [acq .envs, rd .normal] ++
    es.flatMap (fun e => getStateE e ++ testFlagE e ++ getStateE e ++ testFlagE e ++ testFlagE e ++ testFlagE e ++ workload e) ++
    [rd .max, rd .max] ++ es.flatMap stopSchedule ++ [rel .envs]
/-- `e` steals `c` from `f` (co_manager.cpp:469-488). -/
def stealFrom (e c : Nat) (cs : List Nat) (f : Nat) : Code :=
  getStateE f ++ [acq (.sched f)] ++ takeMovable f cs ++ moveHere e c ++ [rel (.sched f)]
/-- `e` tries the envs `es` (co_manager.cpp:458-489). -/
def stealInto (es cs : List Nat) (c e : Nat) : Code := [acq (.sched e)] ++ es.flatMap (stealFrom e c cs) ++ [rel (.sched e)]
/-- `steal_ctx_routine__` (co_manager.cpp:441-491). -/
def steal (es cs : List Nat) (c : Nat) : Code :=
  [acq .envs, rd .normal] ++ es.flatMap (fun e => getStateE e ++ testFlagE e) ++ es.flatMap (stealInto es cs c) ++ [rel .envs]
/-- `timing_duration` and the use of the reference it returns (co_manager.cpp:401-405, 343). -/
def timing : Code := [acq .dur, rel .dur, rd .duration]
/-- `set_timer_tick_duration` (co_manager.cpp:387-399). -/
def setDuration : Code := [acq .dur, wr .duration, rel .dur]
/-- One round of `monitor_routine__`; `v`: event `timing_routine_timeout`, whose callbacks do `cb` (co_manager.cpp:337-347, 123-144). -/
def monitorRound (v : Nat) (cb : Code) : Code := [acq .envs, rd .cleanUp, rel .envs] ++ timing ++ pub v cb
/-- One round of `timer_routine__` with the first timer `f`, whose expiry creates `c` on `e` (co_manager.cpp:349-385). -/
def timerRound (f : Nat) (ts : List Nat) (c e v : Nat) (es : List Nat) (e' v' : Nat) : Code :=
  [acq .queue, rd .cleanUp, rd .timers, rel .queue, acq .queue, rd .cleanUp, rd .timers] ++ expireTime f ++ createCtx c e v es e' v' ++
    tStop f ts ++ tStart f ts ++ expireTime f ++ [rel .queue]
/-- `manager_info` (co_manager.cpp:507-560). -/
def managerInfo (es cs ts : List Nat) (i : Nat) : Code :=
  [acq .queue, acq .dur, acq .queue, acq .envs, rd .normal] ++ es.flatMap (fun e => envInfo e i cs) ++ [rd .expired] ++
    es.flatMap (fun e => envInfo e i cs) ++ [rel .envs, rd .base, rd .max, rd .cleanUp, rd .duration, acq .queue, rd .timers] ++
    ts.flatMap timerInfo ++ [rel .queue, rd .sharedSize, rel .queue, rel .dur, rel .queue]

/-! ## Mutexes and condition variables -/

/-- A turn of the spin phase of `lock` (co_mutex.cpp:28-40, co_recursive_mutex.cpp:29-40, co_shared_mutex.cpp:31-42, 116-127). -/
def spinTurn (m : Nat) : Code := [rd (.obj m), rel (.spin m), acq (.spin m)]
/-- A turn of the sleep phase of `lock` (co_mutex.cpp:57-69, co_recursive_mutex.cpp:54-62, co_shared_mutex.cpp:59-67, 144-152). -/
def sleepTurn (m c : Nat) : Code := [rd (.obj m)] ++ enterWait c ++ [rel (.spin m), acq (.spin m)]
/-- `lock` of a mutex by `c`: `n` turns of the spin phase, then `k` times asleep. (co_mutex.cpp:17-70, co_recursive_mutex.cpp:14-63,
co_shared_mutex.cpp:15-68 and 100-153: the same shape) -/
def mLock (m c n k : Nat) : Code :=
  [acq (.spin m), rd (.obj m)] ++ (List.range n).flatMap (fun _ => spinTurn m) ++ [rd (.obj m), wr (.obj m), wr (.deque m)] ++
    (List.range k).flatMap (fun _ => sleepTurn m c) ++ [rd (.obj m), rel (.spin m)]
/-- `try_lock`, `try_lock_shared` (co_mutex.cpp:72-83, co_recursive_mutex.cpp:65-77, co_shared_mutex.cpp:70-82, 155-167). -/
def mTry (m : Nat) : Code := [acq (.spin m), rd (.obj m), wr (.obj m), rel (.spin m)]
/-- `unlock`, `unlock_shared`; `ds`: who is woken up, with envs. (co_mutex.cpp:85-108, co_recursive_mutex.cpp:79-107,
co_shared_mutex.cpp:84-98, 169-218) -/
def mUnlock (m : Nat) (ds : List (Nat × Nat)) : Code :=
  [acq (.spin m), rd (.obj m), wr (.obj m), rd (.deque m), wr (.deque m), wr (.obj m)] ++ ds.flatMap (fun d => leaveWait d.1 d.2) ++
    [wr (.obj m), wr (.deque m), rel (.spin m)]
/-- The first part of `wait`, `wait_until` (co_condition_variable.h:58-64, 104-110). -/
def cvPark (v m c : Nat) (ds : List (Nat × Nat)) : Code := [acq (.cv v), wr (.waiters v)] ++ mUnlock m ds ++ enterWait c ++ [rel (.cv v)]
/-- `notify_one`, `notify_all` (co_condition_variable.cpp:18-40). -/
def cvNotify (v : Nat) (ds : List (Nat × Nat)) : Code :=
  [acq (.cv v), rd (.waiters v), wr (.waiters v)] ++ ds.flatMap (fun d => leaveWait d.1 d.2) ++ [wr (.waiters v), rel (.cv v)]
/-- `wait`, without the yield (co_condition_variable.h:53-88). -/
def cvWait (v m c n k : Nat) (ds : List (Nat × Nat)) : Code := cvPark v m c ds ++ mLock m c n k
/-- The callback of the timer of `wait_until` (co_condition_variable.h:96-101, 131-136). -/
def cvFire (v c e : Nat) : Code := [acq (.cv v), wr (.waiters v), wr (.timeout v)] ++ leaveWait c e ++ [rel (.cv v)]
/-- It is run by `co_timer::run` (co_timer.cpp:122-129). -/
def cvTimeout (t v c e : Nat) : Code := tRun t (cvFire v c e)
/-- `wait_until` by `c` on `e` with timer `t`, without the yield (co_condition_variable.h:90-117; with a predicate, 125-157, it is
repeated). -/
def cvWaitUntil (t v m c e n k : Nat) (ts : List Nat) (ds : List (Nat × Nat)) : Code :=
  [acq (.sched e)] ++ tStart t ts ++ cvPark v m c ds ++ [rel (.sched e), acq (.sched e)] ++ mLock m c n k ++ [rd (.timeout v)] ++ tStop t ts ++
    [rd (.timeout v), rel (.sched e)]
/-- `wait_ctx` of `d` on `e` for `c`; `v`, `w`: events `finished` of `c` and `priority_changed` of `d` (co_env.cpp:154-187). -/
def waitCtx (c d e v w : Nat) (cs : List Nat) (rs : List (List Nat)) : Code :=
  priority d ++ priority c ++ setPrio d e w ++ [acq (.fin c), acq (.sched e)] ++ getStateC c ++ enterWait d ++ sub v ++
    [rel (.sched e), rel (.fin c)] ++ scheduleSwitch e d c cs rs ++ checkExc c ++ setPrio d e w
/-- `wait_ctx` with a time-out, with timer `t` (co_env.cpp:99-152). -/
def waitCtxFor (c d e v w t : Nat) (ts cs : List Nat) (rs : List (List Nat)) : Code :=
  priority d ++ priority c ++ setPrio d e w ++ [acq (.fin c), acq (.sched e)] ++ getStateC c ++ enterWait d ++ sub v ++ setCall t ++ tStart t ts ++
    [rel (.sched e), rel (.fin c)] ++ scheduleSwitch e d c cs rs ++ [acq (.fin c)] ++ getStateC c ++ [rel (.fin c)] ++ checkExc c ++ setPrio d e w

/-- What coroutines and threads may run: the functions above in any order, callbacks that do such things; a branch may leave out accesses
(`drop`) and calls (`skip`); where no lock is held beyond those at the beginning, the rest may be run by another thread, which is written as
another coroutine that begins there (`cut`). With `info`, also the functions that print. (Concerns co_manager.cpp:23-560, co_env.cpp:26-833.) -/
inductive Lib (info : Bool) : Code → Prop
  | nil : Lib info []
  | app (a b) : Lib info a → Lib info b → Lib info (a ++ b)
  | drop (a p b) : Lib info (a ++ [p] ++ b) → (∃ x, p.touches x) → Lib info (a ++ b)
  | skip (a c b) : Lib info (a ++ c ++ b) → Lib info c → Lib info (a ++ b)
  | cut (a b) : Lib info (a ++ b) → (∀ h, after h a = h) → Lib info b
  | setFlagC (c) : Lib info (setFlagC c)
  | testFlagC (c) : Lib info (testFlagC c)
  | setFlagE (e) : Lib info (setFlagE e)
  | testFlagE (e) : Lib info (testFlagE e)
  | setStateC (c) : Lib info (setStateC c)
  | getStateC (c) : Lib info (getStateC c)
  | setStateE (e) : Lib info (setStateE e)
  | getStateE (e) : Lib info (getStateE e)
  | sub (v) : Lib info (sub v)
  | unsub (v) : Lib info (unsub v)
  | pub (v cb) : Lib info cb → Lib info (pub v cb)
  | priority (c) : Lib info (priority c)
  | setPrio (c e v) : Lib info (setPrio c e v)
  | enterWait (c) : Lib info (enterWait c)
  | leaveWait (c e) : Lib info (leaveWait c e)
  | finish (c v cb) : Lib info cb → Lib info (finish c v cb)
  | addCtx (e c) : Lib info (addCtx e c)
  | wakeUp (e) : Lib info (wakeUp e)
  | workload (e) : Lib info (workload e)
  | scheduleSwitch (e c d cs rs) : Lib info (scheduleSwitch e c d cs rs)
  | sleepIfNeed (e c rs) : Lib info (sleepIfNeed e c rs)
  | removeCtx (e c) : Lib info (removeCtx e c)
  | startRoutine (e) : Lib info (startRoutine e)
  | stopSchedule (e) : Lib info (stopSchedule e)
  | isRunning (t) : Lib info (isRunning t)
  | expireTime (t) : Lib info (expireTime t)
  | tStart (t ts) : Lib info (tStart t ts)
  | tStop (t ts) : Lib info (tStop t ts)
  | setCall (t) : Lib info (setCall t)
  | tRun (t cb) : Lib info cb → Lib info (tRun t cb)
  | createEnv (e v) : Lib info (createEnv e v)
  | createCtx (c e v es e' v') : Lib info (createCtx c e v es e' v')
  | removeEnv : Lib info removeEnv
  | createFromThread (v) : Lib info (createFromThread v)
  | setCleanUp (es) : Lib info (setCleanUp es)
  | cleanRound (es) : Lib info (cleanRound es)
  | setBase : Lib info [wr .base]
  | setMax : Lib info [wr .max]
  | setShared : Lib info [wr .sharedSize]
  | forceSchedule (es) : Lib info (forceSchedule es)
  | redistribute (es cs e v) : Lib info (redistribute es cs e v)
  | destroyRedundant (es) : Lib info (destroyRedundant es)
  | steal (es cs c) : Lib info (steal es cs c)
  | setDuration : Lib info setDuration
  | monitorRound (v cb) : Lib info cb → Lib info (monitorRound v cb)
  | timerRound (f ts c e v es e' v') : Lib info (timerRound f ts c e v es e' v')
  | timerInfo (t) : Lib info (timerInfo t)
  | mLock (m c n k) : Lib info (mLock m c n k)
  | mTry (m) : Lib info (mTry m)
  | mUnlock (m ds) : Lib info (mUnlock m ds)
  | cvWait (v m c n k ds) : Lib info (cvWait v m c n k ds)
  | cvNotify (v ds) : Lib info (cvNotify v ds)
  | cvTimeout (t v c e) : Lib info (cvTimeout t v c e)
  | cvWaitUntil (t v m c e n k ts ds) : Lib info (cvWaitUntil t v m c e n k ts ds)
  | waitCtx (c d e v w cs rs) : Lib info (waitCtx c d e v w cs rs)
  | waitCtxFor (c d e v w t ts cs rs) : Lib info (waitCtxFor c d e v w t ts cs rs)
  | ctxInfo (c) : info = true → Lib info (ctxInfo c)
  | envInfo (e i cs) : info = true → Lib info (envInfo e i cs)
  | managerInfo (es cs ts i) : info = true → Lib info (managerInfo es cs ts i)

/-! ## Discipline -/

theorem ups_ups (h : Lk → Nat) (l : Lk) (n k : Nat) : ups (ups h l n) l k = ups h l k := by
  funext j; by_cases hj : j = l <;> simp [ups, hj]

theorem ups_self (h : Lk → Nat) (l : Lk) : ups h l (h l) = h := by
  funext j; by_cases hj : j = l <;> simp [ups, hj]

theorem ups_pos (h : Lk → Nat) (l k : Lk) (n : Nat) : 0 < ups h l (n + 1) k ↔ k = l ∨ 0 < h k := by
  by_cases hk : k = l <;> simp [ups, hk]

/-- The checks of `Disc` along a piece of code that need not release everything. (Concerns co_manager.cpp:23-560, co_env.cpp:26-833.) -/
def chk (g : Fd → Option Lk) : (Lk → Nat) → Code → Prop
  | _, [] => True
  | h, .acq l :: r => chk g (ups h l (h l + 1)) r
  | h, .rel l :: r => 0 < h l ∧ chk g (ups h l (h l - 1)) r
  | h, .rd x :: r => (∀ l, g x = some l → 0 < h l) ∧ chk g h r
  | h, .wr x :: r => (∀ l, g x = some l → 0 < h l) ∧ chk g h r

theorem chk_app (g : Fd → Option Lk) (h : Lk → Nat) (a b : Code) : chk g h (a ++ b) ↔ chk g h a ∧ chk g (after h a) b := by
  induction a generalizing h with
  | nil => simp [chk, after]
  | cons o a ih => cases o <;> simp [chk, after, ih, and_assoc]

theorem after_app (h : Lk → Nat) (a b : Code) : after h (a ++ b) = after (after h a) b := by
  induction a generalizing h with
  | nil => rfl
  | cons o a ih => cases o <;> simp [after, ih]

theorem disc_of_chk (g : Fd → Option Lk) (h : Lk → Nat) (a : Code) (hc : chk g h a) (ha : ∀ l, after h a l = 0) : Disc g h a := by
  induction a generalizing h with
  | nil => exact ha
  | cons o a ih =>
    cases o with
    | acq l => exact ih _ hc ha
    | rel l => exact ⟨hc.1, ih _ hc.2 ha⟩
    | rd x => exact ⟨hc.1, ih _ hc.2 ha⟩
    | wr x => exact ⟨hc.1, ih _ hc.2 ha⟩

/-- A piece of code that obeys the discipline whatever is locked before, and leaves the locks as they were. (Concerns co_manager.cpp:23-560, co_env.cpp:26-833.) -/
def Bal (info : Bool) (a : Code) : Prop := ∀ h, chk (G info) h a ∧ after h a = h

theorem Bal.nil (info : Bool) : Bal info [] := fun _ => ⟨trivial, rfl⟩

theorem Bal.app {info : Bool} {a b : Code} (ha : Bal info a) (hb : Bal info b) : Bal info (a ++ b) := fun h => by
  rw [chk_app, after_app, (ha h).2]
  exact ⟨⟨(ha h).1, (hb h).1⟩, (hb h).2⟩

theorem after_flatMap {α : Type} (as : List α) (f : α → Code) (h : Lk → Nat) (ha : ∀ a, after h (f a) = h) : after h (as.flatMap f) = h := by
  induction as with
  | nil => rfl
  | cons a as ih => rw [List.flatMap_cons, after_app, ha, ih]

theorem chk_flatMap {α : Type} (g : Fd → Option Lk) (as : List α) (f : α → Code) (h : Lk → Nat) (ha : ∀ a, after h (f a) = h)
    (hc : ∀ a, chk g h (f a)) : chk g h (as.flatMap f) ↔ True := by
  refine iff_true_intro ?_
  induction as with
  | nil => trivial
  | cons a as ih => rw [List.flatMap_cons, chk_app, ha]; exact ⟨hc a, ih⟩

/-- Accesses left out do not matter. -/
theorem Bal.drop {info : Bool} {a b : Code} {p : Op Lk Fd} (hp : ∃ x, p.touches x) (hb : Bal info (a ++ [p] ++ b)) : Bal info (a ++ b) := by
  intro h
  have := hb h
  simp only [chk_app, after_app] at this ⊢
  obtain ⟨x, rfl | rfl⟩ := hp <;> exact ⟨⟨this.1.1.1, this.1.2⟩, this.2⟩

/-- Calls left out do not matter. -/
theorem Bal.skip {info : Bool} {a c b : Code} (hc : Bal info c) (hb : Bal info (a ++ c ++ b)) : Bal info (a ++ b) := by
  intro h
  have := hb h
  simp only [chk_app, after_app] at this ⊢
  rw [(hc _).2] at this
  exact ⟨⟨this.1.1.1, this.1.2⟩, this.2⟩

theorem Bal.chk {info : Bool} {a : Code} (ha : Bal info a) (h : Lk → Nat) : chk (G info) h a ↔ True := iff_true_intro (ha h).1

theorem Bal.aft {info : Bool} {a : Code} (ha : Bal info a) (h : Lk → Nat) : after h a = h := (ha h).2

/-- Unfold one function; the functions it calls are known to be balanced. -/
local macro "bal " i:ident d:ident : tactic =>
  `(tactic| (intro h; constructor <;> cases $i:ident <;>
      simp [$d:ident, chk_app, after_app, chk_flatMap, after_flatMap, chk, after, ups_ups, ups_self, ups_pos, G, *]))

theorem Bal.aft_true {a : Code} (ha : Bal true a) (h : Lk → Nat) : after h a = h := ha.aft h
theorem Bal.aft_false {a : Code} (ha : Bal false a) (h : Lk → Nat) : after h a = h := ha.aft h

attribute [local simp] Bal.chk Bal.aft_true Bal.aft_false

@[local simp] theorem bal_setFlagC (info : Bool) (c : Nat) : Bal info (setFlagC c) := by bal info setFlagC

@[local simp] theorem bal_testFlagC (info : Bool) (c : Nat) : Bal info (testFlagC c) := by bal info testFlagC

@[local simp] theorem bal_setFlagE (info : Bool) (e : Nat) : Bal info (setFlagE e) := by bal info setFlagE

@[local simp] theorem bal_testFlagE (info : Bool) (e : Nat) : Bal info (testFlagE e) := by bal info testFlagE

@[local simp] theorem bal_setStateC (info : Bool) (c : Nat) : Bal info (setStateC c) := by bal info setStateC

@[local simp] theorem bal_getStateC (info : Bool) (c : Nat) : Bal info (getStateC c) := by bal info getStateC

@[local simp] theorem bal_setStateE (info : Bool) (e : Nat) : Bal info (setStateE e) := by bal info setStateE

@[local simp] theorem bal_getStateE (info : Bool) (e : Nat) : Bal info (getStateE e) := by bal info getStateE

@[local simp] theorem bal_sub (info : Bool) (v : Nat) : Bal info (sub v) := by bal info sub

@[local simp] theorem bal_unsub (info : Bool) (v : Nat) : Bal info (unsub v) := by bal info unsub

@[local simp] theorem bal_priority (info : Bool) (c : Nat) : Bal info (priority c) := by bal info priority

@[local simp] theorem bal_updMin (info : Bool) (e : Nat) : Bal info (updMin e) := by bal info updMin

@[local simp] theorem bal_wakeUp (info : Bool) (e : Nat) : Bal info (wakeUp e) := by bal info wakeUp

@[local simp] theorem bal_pub (info : Bool) (v : Nat) (cb : Code) (hcb : Bal info cb) : Bal info (pub v cb) := by bal info pub

@[local simp] theorem bal_handlePrio (info : Bool) (e : Nat) (c : Nat) : Bal info (handlePrio e c) := by bal info handlePrio

@[local simp] theorem bal_setPrio (info : Bool) (c : Nat) (e : Nat) (v : Nat) : Bal info (setPrio c e v) := by bal info setPrio

@[local simp] theorem bal_canSchedule (info : Bool) (c : Nat) : Bal info (canSchedule c) := by bal info canSchedule

@[local simp] theorem bal_canMove (info : Bool) (c : Nat) : Bal info (canMove c) := by bal info canMove

@[local simp] theorem bal_enterWait (info : Bool) (c : Nat) : Bal info (enterWait c) := by bal info enterWait

@[local simp] theorem bal_leaveWait (info : Bool) (c : Nat) (e : Nat) : Bal info (leaveWait c e) := by bal info leaveWait

@[local simp] theorem bal_finish (info : Bool) (c : Nat) (v : Nat) (cb : Code) (hcb : Bal info cb) : Bal info (finish c v cb) := by bal info finish

@[local simp] theorem bal_checkExc (info : Bool) (c : Nat) : Bal info (checkExc c) := by bal info checkExc

@[local simp] theorem bal_workload (info : Bool) (e : Nat) : Bal info (workload e) := by bal info workload

@[local simp] theorem bal_moveHere (info : Bool) (e : Nat) (c : Nat) : Bal info (moveHere e c) := by bal info moveHere

@[local simp] theorem bal_addCtx (info : Bool) (e : Nat) (c : Nat) : Bal info (addCtx e c) := by bal info addCtx

@[local simp] theorem bal_removeCtx (info : Bool) (e : Nat) (c : Nat) : Bal info (removeCtx e c) := by bal info removeCtx

@[local simp] theorem bal_removeDetached (info : Bool) (e : Nat) (cs : List Nat) : Bal info (removeDetached e cs) := by bal info removeDetached

@[local simp] theorem bal_canScheduleE (info : Bool) (e : Nat) (cs : List Nat) : Bal info (canScheduleE e cs) := by bal info canScheduleE

@[local simp] theorem bal_choose (info : Bool) (e : Nat) (cs : List Nat) : Bal info (choose e cs) := by bal info choose

@[local simp] theorem bal_sleepIfNeed (info : Bool) (e : Nat) (c : Nat) (rs : List (List Nat)) : Bal info (sleepIfNeed e c rs) := by bal info sleepIfNeed

@[local simp] theorem bal_scheduleSwitch (info : Bool) (e : Nat) (c : Nat) (d : Nat) (cs : List Nat) (rs : List (List Nat)) : Bal info (scheduleSwitch e c d cs rs) := by bal info scheduleSwitch

@[local simp] theorem bal_takeMovable (info : Bool) (e : Nat) (cs : List Nat) : Bal info (takeMovable e cs) := by bal info takeMovable

@[local simp] theorem bal_isBlocked (info : Bool) (e : Nat) : Bal info (isBlocked e) := by bal info isBlocked

@[local simp] theorem bal_stopSchedule (info : Bool) (e : Nat) : Bal info (stopSchedule e) := by bal info stopSchedule

@[local simp] theorem bal_startRoutine (info : Bool) (e : Nat) : Bal info (startRoutine e) := by bal info startRoutine

@[local simp] theorem bal_expireTime (info : Bool) (t : Nat) : Bal info (expireTime t) := by bal info expireTime

@[local simp] theorem bal_isRunning (info : Bool) (t : Nat) : Bal info (isRunning t) := by bal info isRunning

@[local simp] theorem bal_queueOp (info : Bool) (ts : List Nat) : Bal info (queueOp ts) := by bal info queueOp

@[local simp] theorem bal_tStart (info : Bool) (t : Nat) (ts : List Nat) : Bal info (tStart t ts) := by bal info tStart

@[local simp] theorem bal_tStop (info : Bool) (t : Nat) (ts : List Nat) : Bal info (tStop t ts) := by bal info tStop

@[local simp] theorem bal_setCall (info : Bool) (t : Nat) : Bal info (setCall t) := by bal info setCall

@[local simp] theorem bal_tRun (info : Bool) (t : Nat) (cb : Code) (hcb : Bal info cb) : Bal info (tRun t cb) := by bal info tRun

@[local simp] theorem bal_timerInfo (info : Bool) (t : Nat) : Bal info (timerInfo t) := by bal info timerInfo

@[local simp] theorem bal_createEnv (info : Bool) (e : Nat) (v : Nat) : Bal info (createEnv e v) := by bal info createEnv

@[local simp] theorem bal_getBest (info : Bool) (es : List Nat) (e : Nat) (v : Nat) : Bal info (getBest es e v) := by bal info getBest

@[local simp] theorem bal_createCtx (info : Bool) (c : Nat) (e : Nat) (v : Nat) (es : List Nat) (e' : Nat) (v' : Nat) : Bal info (createCtx c e v es e' v') := by bal info createCtx

@[local simp] theorem bal_removeEnv (info : Bool) : Bal info (removeEnv) := by bal info removeEnv

@[local simp] theorem bal_createFromThread (info : Bool) (v : Nat) : Bal info (createFromThread v) := by bal info createFromThread

@[local simp] theorem bal_setCleanUp (info : Bool) (es : List Nat) : Bal info (setCleanUp es) := by bal info setCleanUp

@[local simp] theorem bal_cleanRound (info : Bool) (es : List Nat) : Bal info (cleanRound es) := by bal info cleanRound

@[local simp] theorem bal_forceSchedule (info : Bool) (es : List Nat) : Bal info (forceSchedule es) := by bal info forceSchedule

@[local simp] theorem bal_collect (info : Bool) (e : Nat) (cs : List Nat) : Bal info (collect e cs) := by bal info collect

@[local simp] theorem bal_redistribute (info : Bool) (es : List Nat) (cs : List Nat) (e' : Nat) (v' : Nat) : Bal info (redistribute es cs e' v') := by bal info redistribute

@[local simp] theorem bal_destroyRedundant (info : Bool) (es : List Nat) : Bal info (destroyRedundant es) := by bal info destroyRedundant

@[local simp] theorem bal_stealFrom (info : Bool) (e c : Nat) (cs : List Nat) (f : Nat) : Bal info (stealFrom e c cs f) := by bal info stealFrom

@[local simp] theorem bal_stealInto (info : Bool) (es cs : List Nat) (c e : Nat) : Bal info (stealInto es cs c e) := by bal info stealInto

@[local simp] theorem bal_steal (info : Bool) (es : List Nat) (cs : List Nat) (c : Nat) : Bal info (steal es cs c) := by bal info steal

@[local simp] theorem bal_timing (info : Bool) : Bal info (timing) := by bal info timing

@[local simp] theorem bal_monitorRound (info : Bool) (v : Nat) (cb : Code) (hcb : Bal info cb) : Bal info (monitorRound v cb) := by bal info monitorRound

@[local simp] theorem bal_setDuration (info : Bool) : Bal info (setDuration) := by bal info setDuration

@[local simp] theorem bal_timerRound (info : Bool) (f : Nat) (ts : List Nat) (c : Nat) (e : Nat) (v : Nat) (es : List Nat) (e' : Nat) (v' : Nat) : Bal info (timerRound f ts c e v es e' v') := by bal info timerRound

@[local simp] theorem bal_mLock (info : Bool) (m : Nat) (c : Nat) (n : Nat) (k : Nat) : Bal info (mLock m c n k) := by
  have h1 : ∀ h : Lk → Nat, after (ups h (.spin m) (h (.spin m) + 1)) (spinTurn m) = ups h (.spin m) (h (.spin m) + 1) := by
    intro h; simp [spinTurn, after, ups_ups, ups_self]
  have h2 : ∀ h : Lk → Nat, chk (G info) (ups h (.spin m) (h (.spin m) + 1)) (spinTurn m) := by
    intro h; simp [spinTurn, chk, G, ups_pos]
  have h3 : ∀ h : Lk → Nat, after (ups h (.spin m) (h (.spin m) + 1)) (sleepTurn m c) = ups h (.spin m) (h (.spin m) + 1) := by
    intro h; simp [sleepTurn, after, after_app, ups_ups, ups_self]
  have h4 : ∀ h : Lk → Nat, chk (G info) (ups h (.spin m) (h (.spin m) + 1)) (sleepTurn m c) := by
    intro h; simp [sleepTurn, chk, chk_app, G, ups_pos]
  intro h
  have e1 := after_flatMap (List.range n) (fun _ => spinTurn m) _ (fun _ => h1 h)
  have e2 := chk_flatMap (G info) (List.range n) (fun _ => spinTurn m) _ (fun _ => h1 h) (fun _ => h2 h)
  have e3 := after_flatMap (List.range k) (fun _ => sleepTurn m c) _ (fun _ => h3 h)
  have e4 := chk_flatMap (G info) (List.range k) (fun _ => sleepTurn m c) _ (fun _ => h3 h) (fun _ => h4 h)
  constructor <;> simp [mLock, chk_app, after_app, chk, after, ups_ups, ups_self, ups_pos, G, e1, e2, e3, e4]

@[local simp] theorem bal_mTry (info : Bool) (m : Nat) : Bal info (mTry m) := by bal info mTry

@[local simp] theorem bal_mUnlock (info : Bool) (m : Nat) (ds : List (Nat × Nat)) : Bal info (mUnlock m ds) := by bal info mUnlock

@[local simp] theorem bal_cvPark (info : Bool) (v : Nat) (m : Nat) (c : Nat) (ds : List (Nat × Nat)) : Bal info (cvPark v m c ds) := by bal info cvPark

@[local simp] theorem bal_cvNotify (info : Bool) (v : Nat) (ds : List (Nat × Nat)) : Bal info (cvNotify v ds) := by bal info cvNotify

@[local simp] theorem bal_cvWait (info : Bool) (v : Nat) (m : Nat) (c : Nat) (n : Nat) (k : Nat) (ds : List (Nat × Nat)) : Bal info (cvWait v m c n k ds) := by bal info cvWait

@[local simp] theorem bal_cvFire (info : Bool) (v c e : Nat) : Bal info (cvFire v c e) := by bal info cvFire

@[local simp] theorem bal_cvTimeout (info : Bool) (t : Nat) (v : Nat) (c : Nat) (e : Nat) : Bal info (cvTimeout t v c e) := by bal info cvTimeout

@[local simp] theorem bal_cvWaitUntil (info : Bool) (t : Nat) (v : Nat) (m : Nat) (c : Nat) (e : Nat) (n : Nat) (k : Nat) (ts : List Nat) (ds : List (Nat × Nat)) : Bal info (cvWaitUntil t v m c e n k ts ds) := by bal info cvWaitUntil

@[local simp] theorem bal_waitCtx (info : Bool) (c : Nat) (d : Nat) (e : Nat) (v : Nat) (w : Nat) (cs : List Nat) (rs : List (List Nat)) : Bal info (waitCtx c d e v w cs rs) := by bal info waitCtx

@[local simp] theorem bal_waitCtxFor (info : Bool) (c : Nat) (d : Nat) (e : Nat) (v : Nat) (w : Nat) (t : Nat) (ts : List Nat) (cs : List Nat) (rs : List (List Nat)) : Bal info (waitCtxFor c d e v w t ts cs rs) := by bal info waitCtxFor

theorem bal_ctxInfo (c : Nat) : Bal true (ctxInfo c) := by
  intro h; constructor <;> simp [ctxInfo, chk_app, after_app, chk, after, G]

theorem bal_envInfo (e i : Nat) (cs : List Nat) : Bal true (envInfo e i cs) := by
  have hc := bal_ctxInfo
  intro h
  constructor <;> simp [envInfo, chk_app, after_app, chk_flatMap, after_flatMap, chk, after, ups_ups, ups_self, ups_pos, G, hc]

theorem bal_managerInfo (es cs ts : List Nat) (i : Nat) : Bal true (managerInfo es cs ts i) := by
  have hc := bal_envInfo
  intro h
  constructor <;> simp [managerInfo, chk_app, after_app, chk_flatMap, after_flatMap, chk, after, ups_ups, ups_self, ups_pos, G, hc]

/-- Everything a program can do with the library obeys the discipline. -/
theorem bal_lib {info : Bool} {b : Code} (h : Lib info b) : Bal info b := by
  induction h with
  | nil => exact Bal.nil info
  | app a b _ _ ha hb => exact ha.app hb
  | drop a p b _ hp ih => exact ih.drop hp
  | skip a c b _ _ ih hc => exact hc.skip ih
  | cut a b _ ha ih =>
    intro h
    have := ih h
    rw [chk_app, after_app, ha] at this
    exact ⟨this.1.2, this.2⟩
  | setBase => intro h; simp [chk, after, G]
  | setMax => intro h; simp [chk, after, G]
  | setShared => intro h; simp [chk, after, G]
  | pub v cb _ ih => exact bal_pub info v cb ih
  | finish c v cb _ ih => exact bal_finish info c v cb ih
  | tRun t cb _ ih => exact bal_tRun info t cb ih
  | monitorRound v cb _ ih => exact bal_monitorRound info v cb ih
  | ctxInfo c hi => subst hi; exact bal_ctxInfo c
  | envInfo e i cs hi => subst hi; exact bal_envInfo e i cs
  | managerInfo es cs ts i hi => subst hi; exact bal_managerInfo es cs ts i
  | _ => simp

theorem disc_lib {info : Bool} {b : Code} (h : Lib info b) : Disc (G info) (fun _ => 0) b :=
  disc_of_chk _ _ _ (bal_lib h _).1 fun l => by rw [(bal_lib h _).2]

/-- **C107, what holds.** The data that has a lock has no data race: in no execution of any number of coroutines on any number of threads
that do anything with the library, interrupted anywhere. With the functions that print, priorities are excepted. -/
theorem C107_guarded_race_free_partial (info : Bool) (thr : Nat → Nat) (s : State Lk Fd) (tr : Tr Lk Fd) (h : Exec thr re (Lib info) s tr) (x : Fd)
    (hx : (G info x).isSome) : ¬ Race tr x := by
  obtain ⟨l, hl⟩ := Option.isSome_iff_exists.1 hx
  exact race_free thr re (Lib info) (G info) (fun b => disc_lib) h hl

/-- Coroutine 0 on thread 0 clears the flag WAITING of coroutine 7 while coroutine 1 on thread 1 tests it: an execution with conflicting
accesses of two threads to guarded data. -/
example : ∃ s, Exec id re (Lib false) s ([(0, .acq (.wait 7)), (0, .wr (.waits 7)), (0, .acq (.flagC 7)), (0, .rd (.flagsC 7)), (0, .wr (.flagsC 7)),
    (0, .rel (.flagC 7)), (0, .rel (.wait 7)), (1, .acq (.flagC 7)), (1, .rd (.flagsC 7)), (1, .rel (.flagC 7))] : Tr Lk Fd) := by
  have h0 := Exec.step _ _ _ _ (.init (thr := id) (re := re) (lib := Lib false)) (.call _ 0 _ rfl (.enterWait 7))
  have h1 := solo _ _ _ 0 (enterWait 7) [] _ _ h0 (by simp) (fun _ _ _ _ => rfl) (by decide)
  have h2 := Exec.step _ _ _ _ h1 (.call _ 1 _ rfl (.testFlagC 7))
  have h3 := solo _ _ _ 1 (testFlagC 7) [] _ _ h2 (by simp) (fun d l hd hl => by
    by_cases h : d = 0
    · subst h; simp [testFlagC] at hl; subst hl; rfl
    · simp [State.init, h]) (by decide)
  exact ⟨_, h3⟩

/-! ## The data without a lock -/

/-- `set_base_schedule_thread_count` writes what `get_best_env__` reads (co_manager.cpp:229-236, 65). -/
theorem race_base (info : Bool) : ∃ s tr, Exec id re (Lib info) s tr ∧ Race tr .base :=
  race_two re (Lib info) [] (sub 0 ++ setFlagC 0 ++ [acq .envs, rd .normal]) [] (createEnv 0 0 ++ [rel .envs] ++ addCtx 0 0) (wr .base) (rd .base) .base
    .setBase (.createCtx 0 0 0 [] 0 0) rfl rfl (.inr rfl) (.inl rfl) (.inl rfl) rfl rfl (fun _ _ => rfl)

/-- `set_max_schedule_thread_count` writes what `destroy_redundant_env__` reads (co_manager.cpp:238-245, 327). -/
theorem race_max (info : Bool) : ∃ s tr, Exec id re (Lib info) s tr ∧ Race tr .max :=
  race_two re (Lib info) [] [acq .envs, rd .normal] [] [rd .max, rel .envs] (wr .max) (rd .max) .max
    .setMax (.destroyRedundant []) rfl rfl (.inr rfl) (.inl rfl) (.inl rfl) rfl rfl (fun _ _ => rfl)

/-- `set_env_shared_stack_size` writes what `create_env` reads (co_manager.cpp:105-108, 90). -/
theorem race_sharedSize (info : Bool) : ∃ s tr, Exec id re (Lib info) s tr ∧ Race tr .sharedSize :=
  race_two re (Lib info) [] [rd .cleanUp] [] (sub 0 ++ setFlagE 0 ++ [acq .envs, wr .normal, rel .envs]) (wr .sharedSize) (rd .sharedSize) .sharedSize
    .setShared (.createEnv 0 0) rfl rfl (.inr rfl) (.inl rfl) (.inl rfl) rfl rfl (fun _ _ => rfl)

/-- `set_clean_up__` writes under `normal_lock` what the timer thread reads under `mu_timer_queue__` (co_manager.cpp:180-181, 351-353). -/
theorem race_cleanUp (info : Bool) : ∃ s tr, Exec id re (Lib info) s tr ∧ Race tr .cleanUp :=
  race_two re (Lib info) [acq .envs] [acq .queue] [rd .normal, rel .envs]
    ([rd .timers, rel .queue, acq .queue, rd .cleanUp, rd .timers] ++ expireTime 0 ++ createCtx 0 0 0 [] 0 0 ++ tStop 0 [] ++ tStart 0 [] ++
      expireTime 0 ++ [rel .queue]) (wr .cleanUp) (rd .cleanUp) .cleanUp
    (.setCleanUp []) (.timerRound 0 [] 0 0 0 [] 0 0) rfl rfl (.inr rfl) (.inl rfl) (.inl rfl) rfl rfl (fun l h => by
      rcases h with h | h <;> simp at h; subst h; rfl)

/-- The monitor reads through the reference that `timing_duration` returned, after its lock was released, what `set_timer_tick_duration`
writes (co_manager.cpp:343, 401-405, 387-399). -/
theorem race_duration (info : Bool) : ∃ s tr, Exec id re (Lib info) s tr ∧ Race tr .duration :=
  race_two re (Lib info) [acq .envs, rd .cleanUp, rel .envs, acq .dur, rel .dur] [acq .dur] (pub 0 []) [rel .dur] (rd .duration) (wr .duration) .duration
    (.monitorRound 0 [] .nil) .setDuration rfl rfl (.inl rfl) (.inr rfl) (.inr rfl) rfl rfl (fun l h => by
      rcases h with h | h <;> simp at h; subst h; rfl)

/-- The scheduling thread of a new env writes its number when the env is already in the set of envs, and the monitor reads it
(co_env.cpp:390, co_vos_gcc_x86_64.cpp:121). -/
theorem race_tid (info : Bool) (e : Nat) : ∃ s tr, Exec id re (Lib info) s tr ∧ Race tr (.tid e) :=
  race_two re (Lib info) [] ([acq .envs, rd .cleanUp, rd .normal] ++ isBlocked e ++ workload e) (setFlagE e ++ setStateE e) (setFlagE e ++ [rel .envs])
    (wr (.tid e)) (rd (.tid e)) (.tid e) (.startRoutine e) (.forceSchedule [e]) rfl rfl (.inr rfl) (.inl rfl) (.inl rfl) rfl
    (by simp [runnable, isBlocked, workload, getStateE, testFlagE, re, ups]) (fun _ _ => rfl)

/-- The timer of one waiter writes under `cv_lock__` what another waiter reads without it (co_condition_variable.h:99, 116). -/
theorem race_timeout (info : Bool) (v : Nat) : ∃ s tr, Exec id re (Lib info) s tr ∧ Race tr (.timeout v) :=
  race_two re (Lib info)
    ([acq (.sched 0)] ++ tStart 0 [] ++ cvPark v 0 0 [] ++ [rel (.sched 0), acq (.sched 0)] ++ mLock 0 0 0 0 ++ [rd (.timeout v)] ++ tStop 0 [])
    [acq (.tmr 1), rd (.tCall 1), acq (.cv v), wr (.waiters v)] [rel (.sched 0)] (leaveWait 1 1 ++ [rel (.cv v), rel (.tmr 1)]) (rd (.timeout v))
    (wr (.timeout v)) (.timeout v) (.cvWaitUntil 0 v 0 0 0 0 0 [] []) (.cvTimeout 1 v 1 1)
    (by simp [cvWaitUntil]) (by simp [cvTimeout, tRun, cvFire]) (.inl rfl) (.inr rfl) (.inr rfl)
    (by simp [runnable, tStart, tStop, queueOp, cvPark, mUnlock, mLock, enterWait, setFlagC, re, ups])
    (by simp [runnable, re, ups]) (fun l h => by
      rcases h with h | h <;> simp at h
      rcases h with rfl | rfl <;> simp [after, tStart, tStop, queueOp, cvPark, mUnlock, mLock, enterWait, setFlagC, ups])

/-- Two coroutines that wait for a third one which has thrown: one takes the exception away, the other looks whether there is one
(co_ctx.cpp:133-136). -/
theorem race_exc (info : Bool) (c : Nat) : ∃ s tr, Exec id re (Lib info) s tr ∧ Race tr (.exc c) := by
  have hl : ∀ d, Lib info (priority d ++ priority c ++ setPrio d d d ++ [acq (.fin c), acq (.sched d)] ++ getStateC c ++
      [rel (.sched d), rel (.fin c)] ++ checkExc c ++ setPrio d d d) := by
    intro d
    have h := Lib.waitCtx (info := info) c d d c d [] []
    have h1 := Lib.skip (info := info) (priority d ++ priority c ++ setPrio d d d ++ [acq (.fin c), acq (.sched d)] ++ getStateC c) (enterWait d)
      (sub c ++ [rel (.sched d), rel (.fin c)] ++ scheduleSwitch d d c [] [] ++ checkExc c ++ setPrio d d d)
      (by simpa [waitCtx] using h) (.enterWait d)
    have h2 := Lib.skip (info := info) (priority d ++ priority c ++ setPrio d d d ++ [acq (.fin c), acq (.sched d)] ++ getStateC c) (sub c)
      ([rel (.sched d), rel (.fin c)] ++ scheduleSwitch d d c [] [] ++ checkExc c ++ setPrio d d d)
      (by simpa using h1) (.sub c)
    have h3 := Lib.skip (info := info) (priority d ++ priority c ++ setPrio d d d ++ [acq (.fin c), acq (.sched d)] ++ getStateC c ++
      [rel (.sched d), rel (.fin c)]) (scheduleSwitch d d c [] []) (checkExc c ++ setPrio d d d)
      (by simpa using h2) (.scheduleSwitch d d c [] [])
    simpa using h3
  refine race_two re (Lib info)
    (priority (c + 1) ++ priority c ++ setPrio (c + 1) (c + 1) (c + 1) ++ [acq (.fin c), acq (.sched (c + 1))] ++ getStateC c ++
      [rel (.sched (c + 1)), rel (.fin c)] ++ [rd (.exc c), rd (.exc c)])
    (priority (c + 2) ++ priority c ++ setPrio (c + 2) (c + 2) (c + 2) ++ [acq (.fin c), acq (.sched (c + 2))] ++ getStateC c ++
      [rel (.sched (c + 2)), rel (.fin c)])
    (setPrio (c + 1) (c + 1) (c + 1)) ([rd (.exc c), wr (.exc c)] ++ setPrio (c + 2) (c + 2) (c + 2)) (wr (.exc c)) (rd (.exc c)) (.exc c)
    (hl (c + 1)) (hl (c + 2)) (by simp [checkExc]) (by simp [checkExc]) (.inr rfl) (.inl rfl) (.inl rfl) ?_ ?_ ?_
  · simp [runnable, priority, setPrio, pub, handlePrio, updMin, getStateC, testFlagC, re, ups]
  · simp [runnable, priority, setPrio, pub, handlePrio, updMin, getStateC, testFlagC, re, ups]
  · intro l _
    simp [after, priority, setPrio, pub, handlePrio, updMin, getStateC, testFlagC, ups]
    grind

/-- `ctx_info` reads the priority without its lock (co_ctx.cpp:236). -/
theorem race_prio (c : Nat) : ∃ s tr, Exec id re (Lib true) s tr ∧ Race tr (.prio c) :=
  race_two re (Lib true) (testFlagC c ++ [acq (.prio c), rd (.prio c)]) [] ([rd (.env c), rd (.prio c)] ++ pub 0 (handlePrio 0 c) ++ [rel (.prio c)])
    ([rd (.env c), rd (.exc c)] ++ testFlagC c ++ getStateC c) (wr (.prio c)) (rd (.prio c)) (.prio c) (.setPrio c 0 0) (.ctxInfo c rfl)
    (by simp [setPrio]) (by simp [ctxInfo]) (.inr rfl) (.inl rfl) (.inl rfl) (by simp [runnable, testFlagC, re, ups]) rfl
    (fun l h => by rcases h with h | h <;> simp at h)

/-- Who wakes a coroutine reads its env without a lock after the flag WAITING is clear, so that `redistribute_ctx__` may move the coroutine to
another env (co_ctx.cpp:204-205, co_env.cpp:85; see also C106). -/
theorem race_env (info : Bool) (c : Nat) : ∃ s tr, Exec id re (Lib info) s tr ∧ Race tr (.env c) :=
  race_two re (Lib info) ([acq (.wait c), wr (.waits c), rd (.waits c)] ++ setFlagC c ++ [rel (.wait c)] ++ testFlagC c)
    ([acq .envs, rd .cleanUp, rd .normal] ++ collect 0 [c] ++ getBest [0] 1 0 ++ getStateE 1 ++ getStateE 1)
    (priority c ++ updMin 0 ++ [rd (.env c)] ++ wakeUp 0)
    ([acq (.list 1)] ++ priority c ++ [wr (.lists 1), rd (.count 1), wr (.count 1), rel (.list 1)] ++ priority c ++
    updMin 1 ++ setStateE 1 ++ wakeUp 1 ++ [rel .envs]) (rd (.env c)) (wr (.env c)) (.env c) (.leaveWait c 0) (.redistribute [0] [c] 1 0)
    (by simp [leaveWait]) (by simp [redistribute, moveHere]) (.inl rfl) (.inr rfl) (.inr rfl)
    (by simp [runnable, setFlagC, testFlagC, re, ups])
    (by simp [runnable, collect, takeMovable, getBest, createEnv, isBlocked, setStateE, getStateE, setFlagE, testFlagE, canMove, getStateC, testFlagC,
      workload, sub, re, ups])
    (fun l h => by simp [after, setFlagC, testFlagC, ups]; grind)

/-- **C107, exactly.** There is an execution with a data race on `x` if and only if `x` is one of the data without a lock: `timeout__`,
`timer_duration__`, `base_env_count`, `max_env_count`, `default_shared_stack_size__`, `clean_up__`, `exception__`,
`schedule_thread_tid__`, `env__`, and, if something prints it, `priority__`. -/
theorem C107_races_exactly (info : Bool) (x : Fd) : (∃ thr s tr, Exec thr re (Lib info) s tr ∧ Race tr x) ↔ G info x = none := by
  constructor
  · rintro ⟨thr, s, tr, h, hr⟩
    rcases hx : G info x with _ | l
    · rfl
    · exact absurd hr (C107_guarded_race_free_partial info thr s tr h x (by rw [hx]; rfl))
  · intro hx
    refine ⟨id, ?_⟩
    cases x <;> simp only [G, reduceCtorEq, ite_eq_left_iff, Bool.not_eq_true, imp_false, Bool.not_eq_false] at hx
    case prio c => subst hx; exact race_prio c
    case timeout v => exact race_timeout info v
    case duration => exact race_duration info
    case base => exact race_base info
    case max => exact race_max info
    case sharedSize => exact race_sharedSize info
    case cleanUp => exact race_cleanUp info
    case exc c => exact race_exc info c
    case tid e => exact race_tid info e
    case env c => exact race_env info c

end Verif.Races
