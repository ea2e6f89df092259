import Verif.Base.LockOrder

/-!
# C108: the library's own locks do not deadlock

Every function of the core of the library as the sequence of its lock operations (the table of `Verif.Sched.Races` without the accesses, with
`try_lock`s and switches). Loops are lists of any length, given as parameters; of branches the longest is written down, and `Lib.skip` leaves
out calls. Preemption by signals is not part of this model (C57, C58, C76, C106 are about it), nor are the mutexes a program builds from
the library's: their internal spinlocks are.

Two locks are ghosts, taken with `tryLock` only, so nobody ever waits for them. `tok c`: whoever changes the priority of `c` while it is in a list
of an env, and whoever moves `c` from list to list, excludes the other (a coroutine that changes its own priority runs, and running coroutines are
neither moved, created nor removed: `can_move`, C55). `ph c`: whoever subscribes to `finished` of `c` has seen under `finished_lock` that `c` has
not finished, and `c` publishes only after it has said under this lock that it has (C50). The program is restricted by the ghosts: code that would
have to wait for one is not run. `C108_sub_pub_apart` proves for `ph c` that the real code never would.
-/

namespace Verif.LibLocks

open Verif.LockOrder LOp

/-- The locks of the library: of the coroutine `c`, the env `e`, the manager, the timer `t`, the condition variable `v`, the mutex `m`, the events
`finished`, `priority_changed`, `task_finished`, `timing_routine_timeout`; and the two ghosts. (co_flag_manager.h:15, co_state_manager.h:13,
co_ctx.h:40, 44, 55, co_env.h:78, 85, 86, co_timer.h:44, co_manager.h:31, 43, 47, co_condition_variable.h:29, `spinlock__` of co_mutex.h,
co_recursive_mutex.h and co_shared_mutex.h, co_event.h:21) -/
inductive Lk
  | flagC (c : Nat) | flagE (e : Nat) | stC (c : Nat) | stE (e : Nat)
  | prio (c : Nat) | wait (c : Nat) | fin (c : Nat)
  | list (e : Nat) | min (e : Nat) | sched (e : Nat)
  | queue | envs | dur | tmr (t : Nat)
  | cv (v : Nat) | spin (m : Nat)
  | evF (c : Nat) | evP (c : Nat) | evE (e : Nat) | evT
  | tok (c : Nat) | ph (c : Nat)
  deriving DecidableEq, Repr

/-- All but the spinlocks (and the ghosts) are `std::recursive_mutex`. (Concerns co_env.cpp:58-768, co_manager.cpp:23-560.) -/
def native : Lk → Bool
  | .cv _ => false
  | .spin _ => false
  | .tok _ => false
  | .ph _ => false
  | _ => true

/-- The order in which the library takes its locks. (Concerns co_env.cpp:58-768, co_manager.cpp:23-560.) -/
def rank : Lk → Nat
  | .tok _ => 0
  | .ph _ => 0
  | .cv _ => 1
  | .spin _ => 2
  | .evT => 3
  | .fin _ => 4
  | .queue => 5
  | .dur => 6
  | .tmr _ => 7
  | .envs => 8
  | .evF _ => 9
  | .sched _ => 10
  | .prio _ => 11
  | .evP _ => 12
  | .list _ => 13
  | .wait _ => 14
  | .min _ => 15
  | .evE _ => 16
  | .stE _ => 17
  | .stC _ => 18
  | .flagC _ => 19
  | .flagE _ => 20

/-- The exceptions: the lock of a coroutine's priority is taken after that of the list it is in (co_env.cpp:80-97, 331-340) though `set_priority` takes them the
other way round (co_ctx.cpp:91-119); `finished` is subscribed to with the schedule lock (co_env.cpp:166-176) though its callbacks take schedule
locks. -/
def gate : Lk → Option Lk
  | .prio c => some (.tok c)
  | .evF c => some (.ph c)
  | _ => none

/-- A piece of code. (Concerns co_env.cpp:58-768, co_manager.cpp:23-560.) -/
abbrev Code := List (LOp Lk)

/-! ## Flags, states, events -/

/-- `set_flag`, `unset_flag`, `test_flag` of a coroutine (co_flag_manager.h:18-32). -/
def flagC (c : Nat) : Code := scope (.flagC c) []
/-- `set_flag`, `unset_flag`, `test_flag` of an env (co_flag_manager.h:18-32). -/
def flagE (e : Nat) : Code := scope (.flagE e) []
/-- `set_state`, `state` of a coroutine (co_state_manager.h:21-36). -/
def stateC (c : Nat) : Code := scope (.stC c) []
/-- `state` of an env (co_state_manager.h:31-36). -/
def getStateE (e : Nat) : Code := scope (.stE e) []
/-- `co_env::set_state` (co_env.cpp:644-648, co_state_manager.h:21-29). -/
def setStateE (e : Nat) : Code := scope (.sched e) (scope (.stE e) [])
/-- `sub`, `unsub` (co_event.h:30-43). -/
def sub (v : Lk) : Code := scope v []
/-- `pub` with callbacks that do `cb` (co_event.h:45-53). -/
def pub (v : Lk) (cb : Code) : Code := scope v cb

/-! ## Coroutines -/

/-- `co_ctx::priority` (co_ctx.cpp:85-89). -/
def getPrio (c : Nat) : Code := scope (.prio c) []
/-- `update_min_priority__` (co_env.cpp:614-621). -/
def updMin (e : Nat) : Code := scope (.min e) []
/-- `wake_up` (co_env.cpp:660-665). -/
def wakeUp (e : Nat) : Code := scope (.sched e) []
/-- The subscriber of `priority_changed` and `handle_priority_changed` (co_manager.cpp:82-84, co_env.cpp:489-500). -/
def handlePrio (e c : Nat) : Code := scope (.list e) (getPrio c ++ getPrio c ++ updMin e)
/-- `set_priority` of `c` on `e` without the ghost (co_ctx.cpp:91-119). -/
def setPrio (c e : Nat) : Code := flagC c ++ scope (.prio c) (pub (.evP c) (handlePrio e c))
/-- A coroutine sets its own priority, as `wait_ctx` and `this_co` do (co_ctx.cpp:91-119, co_env.cpp:161, 186). -/
def setPrioOwn (c e : Nat) : Code := tscope (.tok c) (setPrio c e)
/-- `can_schedule` (co_ctx.cpp:141-144). -/
def canSchedule (c : Nat) : Code := stateC c ++ flagC c
/-- `can_move` (co_ctx.cpp:166-169). -/
def canMove (c : Nat) : Code := stateC c ++ stateC c ++ flagC c ++ flagC c
/-- `enter_wait_resource_state` (co_ctx.cpp:181-190). -/
def enterWait (c : Nat) : Code := scope (.wait c) (flagC c)
/-- `leave_wait_resource_state` of `c` on `e` (co_ctx.cpp:192-207, co_env.cpp:558-565). -/
def leaveWait (c e : Nat) : Code := scope (.wait c) (flagC c) ++ flagC c ++ getPrio c ++ updMin e ++ wakeUp e
/-- Coroutines, given with their envs, are woken up, as by callbacks or loops of `unlock` and `notify_all` (co_shared_mutex.cpp:194-203,
co_condition_variable.cpp:31-40, co_env.cpp:172-175). -/
def wakeAll (ds : List (Nat × Nat)) : Code := ds.flatMap fun d => leaveWait d.1 d.2
/-- The end of `real_entry`, with waiters `ds` (co_ctx.cpp:77-80). -/
def finish (c : Nat) (ds : List (Nat × Nat)) : Code :=
  scope (.fin c) (stateC c) ++ tscope (.ph c) (pub (.evF c) (wakeAll ds))
/-- `ctx_info` (co_ctx.cpp:219-289). -/
def ctxInfo (c : Nat) : Code := flagC c ++ stateC c

/-! ## Envs -/

/-- `workload`, `ctx_count`, `has_ctx` (co_env.cpp:189-199, 623-627). -/
def workload (e : Nat) : Code := scope (.list e) []
/-- `move_ctx_to_here` (co_env.cpp:80-97). -/
def moveHere (e c : Nat) : Code :=
  getStateE e ++ getStateE e ++ tscope (.tok c) (scope (.list e) (getPrio c)) ++ getPrio c ++ updMin e ++ setStateE e ++ wakeUp e
/-- `add_ctx` (co_env.cpp:58-78). -/
def addCtx (e c : Nat) : Code := getStateE e ++ getStateE e ++ flagC c ++ moveHere e c
/-- `remove_ctx` (co_env.cpp:331-340). -/
def removeCtx (e c : Nat) : Code := tscope (.tok c) (scope (.list e) (getPrio c))
/-- `remove_detached_ctx__` (co_env.cpp:201-214, 550-556). -/
def removeDetached (e : Nat) (cs : List Nat) : Code := scope (.list e) [] ++ cs.flatMap fun c => stateC c ++ flagC c ++ removeCtx e c
/-- `can_schedule__`, `choose_ctx_from_normal_list__` (co_env.cpp:502-512, 527-548). -/
def choose (e : Nat) (cs : List Nat) : Code := scope (.list e) (scope (.min e) (cs.flatMap canSchedule))
/-- A round of `sleep_if_need__`: waiting on the condition variable unlocks and locks (co_env.cpp:673-683). -/
def sleepRound (e c : Nat) (cs : List Nat) : Code := choose e cs ++ getStateE e ++ flagC c ++ [unlock (.sched e), lock (.sched e)]
/-- `sleep_if_need__`, with one round per element of `rs` (co_env.cpp:667-684, 519-525). -/
def sleepIfNeed (e c : Nat) (rs : List (List Nat)) : Code := scope (.sched e) (rs.flatMap (sleepRound e c))
/-- `schedule_switch` from `c` to `d`. The schedule lock that `c` takes before the switch and the next coroutine of the thread releases after it is
written as released by `c` (co_env.cpp:311-329, 216-309). -/
def scheduleSwitch (e c d : Nat) (cs : List Nat) (rs : List (List Nat)) : Code :=
  scope (.sched e) (removeDetached e cs ++ getStateE e ++ choose e cs ++ flagE e ++ setStateE e) ++ sleepIfNeed e c rs ++
    scope (.sched e) (stateC c ++ stateC c ++ stateC d ++ flagC c ++ flagC d) ++ [yield] ++ scope (.sched e) []
/-- `take_all_movable_ctx`, `take_one_movable_ctx` (co_env.cpp:575-612). -/
def takeMovable (e : Nat) (cs : List Nat) : Code := scope (.list e) (scope (.min e) (scope (.sched e) (cs.flatMap canMove)))
/-- `is_blocked` (co_env.cpp:514-517). -/
def isBlocked (e : Nat) : Code := getStateE e ++ getStateE e ++ flagE e
/-- `stop_schedule` (co_env.cpp:349-357). -/
def stopSchedule (e : Nat) : Code := flagE e ++ setStateE e ++ wakeUp e
/-- The start of `start_schedule_routine__` (co_env.cpp:388-392). -/
def startRoutine (e : Nat) : Code := flagE e ++ setStateE e
/-- `env_info` (co_env.cpp:697-768). -/
def envInfo (e i : Nat) (cs : List Nat) : Code :=
  scope (.sched e) (scope (.list e) (scope (.min e) (flagE e ++ getStateE e ++ ctxInfo i ++ cs.flatMap ctxInfo)))

/-! ## Timers -/

/-- `expire_time`, `is_expired`, `is_running`, `set_expire_callback`, `timer_info` (co_timer.cpp:51-55, 105-120, 141-177). -/
def tGet (t : Nat) : Code := scope (.tmr t) []
/-- `insert_timer_to_queue__`, `remove_timer_from_queue__`: the timer is compared with the timers `ts` (co_manager.cpp:493-505,
co_timer.cpp:136-139). -/
def queueOp (ts : List Nat) : Code := scope .queue (ts.flatMap tGet)
/-- `start`, `stop` (co_timer.cpp:57-79, 87-103). -/
def tStart (t : Nat) (ts : List Nat) : Code := scope (.tmr t) (queueOp ts)
/-- `run` with a callback that does `cb` (co_timer.cpp:122-129). -/
def tRun (t : Nat) (cb : Code) : Code := scope (.tmr t) cb

/-! ## The manager -/

/-- `create_env` (co_manager.cpp:87-103, 73-78). -/
def createEnv (e : Nat) : Code := sub (.evE e) ++ flagE e ++ scope .envs []
/-- `get_best_env__` over the envs `es`; it may create `e` (co_manager.cpp:23-71). -/
def getBest (es : List Nat) (e : Nat) : Code :=
  scope .envs (es.flatMap (fun e => getStateE e ++ getStateE e ++ flagE e ++ flagE e ++ workload e ++ workload e) ++ createEnv e)
/-- `create_and_schedule_ctx` of `c` on `e` (co_manager.cpp:421-439, 80-85). -/
def createCtx (c e : Nat) (es : List Nat) (e' : Nat) : Code := sub (.evP c) ++ flagC c ++ getBest es e' ++ addCtx e c
/-- `remove_env__` (co_manager.cpp:153-159). -/
def removeEnv : Code := scope .envs []
/-- `create_env_from_this_thread__` (co_manager.cpp:161-167). -/
def createFromThread (e : Nat) : Code := scope .envs (sub (.evE e))
/-- `set_clean_up__`, and the first half of a round of `clean_env_routine__` (co_manager.cpp:178-195, 197-214). -/
def setCleanUp (es : List Nat) : Code := scope .envs (es.flatMap fun e => flagE e ++ removeEnv ++ stopSchedule e)
/-- One round of `clean_env_routine__` (co_manager.cpp:197-227); `destroy_env` is C91. -/
def cleanRound (es : List Nat) : Code := setCleanUp es ++ scope .envs []
/-- `force_schedule__` (co_manager.cpp:247-264). -/
def forceSchedule (es : List Nat) : Code := scope .envs (es.flatMap fun e => isBlocked e ++ workload e ++ flagE e)
/-- What `redistribute_ctx__` does with one env (co_manager.cpp:280-300). -/
def collect (cs : List Nat) (e : Nat) : Code := tscope (.sched e) (isBlocked e ++ setStateE e ++ takeMovable e cs ++ flagE e)
/-- `redistribute_ctx__` (co_manager.cpp:266-306). -/
def redistribute (es cs : List Nat) (e' : Nat) : Code :=
  scope .envs (es.flatMap (collect cs) ++ cs.flatMap fun c => getBest es e' ++ moveHere e' c)
/-- `destroy_redundant_env__` (co_manager.cpp:308-335). -/
def destroyRedundant (es : List Nat) : Code :=
  scope .envs (es.flatMap (fun e => getStateE e ++ flagE e ++ getStateE e ++ flagE e ++ flagE e ++ flagE e ++ workload e) ++ es.flatMap stopSchedule)
/-- `e` steals `c` from `f` (co_manager.cpp:469-488). -/
def stealFrom (e c : Nat) (cs : List Nat) (f : Nat) : Code := getStateE f ++ tscope (.sched f) (takeMovable f cs ++ moveHere e c)
/-- `e` tries the envs `es` (co_manager.cpp:458-489). -/
def stealInto (es cs : List Nat) (c e : Nat) : Code := tscope (.sched e) (es.flatMap (stealFrom e c cs))
/-- `steal_ctx_routine__` (co_manager.cpp:441-491). -/
def steal (es cs : List Nat) (c : Nat) : Code :=
  scope .envs (es.flatMap (fun e => getStateE e ++ flagE e) ++ es.flatMap (stealInto es cs c))
/-- `timing_duration`, `set_timer_tick_duration` (co_manager.cpp:387-405). -/
def timing : Code := scope .dur []
/-- One round of `monitor_routine__`; the four subscribers of `timing_routine_timeout` (co_manager.cpp:337-347, 123-144). -/
def monitorRound (es cs : List Nat) (c e' : Nat) : Code :=
  scope .envs [] ++ timing ++ pub .evT (forceSchedule es ++ redistribute es cs e' ++ destroyRedundant es ++ steal es cs c)
/-- One round of `timer_routine__` with the first timer `f`, whose expiry creates `c` on `e` (co_manager.cpp:349-385). -/
def timerRound (f : Nat) (ts : List Nat) (c e : Nat) (es : List Nat) (e' : Nat) : Code :=
  scope .queue [] ++ scope .queue (tGet f ++ createCtx c e es e' ++ tStart f ts ++ tStart f ts ++ tGet f)
/-- `manager_info` (co_manager.cpp:507-560). -/
def managerInfo (es cs ts : List Nat) (i : Nat) : Code :=
  scope .queue (scope .dur (scope .queue (scope .envs (es.flatMap (fun e => envInfo e i cs) ++ es.flatMap (fun e => envInfo e i cs)) ++
    scope .queue (ts.flatMap tGet))))

/-! ## Mutexes and condition variables -/

/-- A turn of the spin phase of `lock` (co_mutex.cpp:28-40, co_recursive_mutex.cpp:29-40, co_shared_mutex.cpp:31-42, 116-127). -/
def spinTurn (m : Nat) : Code := [unlock (.spin m), yield, lock (.spin m)]
/-- A turn of the sleep phase of `lock` (co_mutex.cpp:57-69, co_recursive_mutex.cpp:54-62, co_shared_mutex.cpp:59-67, 144-152). -/
def sleepTurn (m c : Nat) : Code := enterWait c ++ [unlock (.spin m), yield, lock (.spin m)]
/-- `lock` of a mutex by `c`: `n` turns of the spin phase, then `k` times asleep (co_mutex.cpp:17-70, co_recursive_mutex.cpp:14-63,
co_shared_mutex.cpp:15-68 and 100-153: the same shape). -/
def mLock (m c n k : Nat) : Code :=
  scope (.spin m) ((List.range n).flatMap (fun _ => spinTurn m) ++ (List.range k).flatMap fun _ => sleepTurn m c)
/-- `try_lock`, `try_lock_shared` (co_mutex.cpp:72-83, co_recursive_mutex.cpp:65-77, co_shared_mutex.cpp:70-82, 155-167). -/
def mTry (m : Nat) : Code := scope (.spin m) []
/-- `unlock`, `unlock_shared`; `ds`: who is woken up, with envs (co_mutex.cpp:85-108, co_recursive_mutex.cpp:79-107,
co_shared_mutex.cpp:84-98, 169-218). -/
def mUnlock (m : Nat) (ds : List (Nat × Nat)) : Code := scope (.spin m) (wakeAll ds)
/-- The first part of `wait`, `wait_until` (co_condition_variable.h:58-64, 104-110). -/
def cvPark (v m c : Nat) (ds : List (Nat × Nat)) : Code := scope (.cv v) (mUnlock m ds ++ enterWait c)
/-- `notify_one`, `notify_all` (co_condition_variable.cpp:18-40). -/
def cvNotify (v : Nat) (ds : List (Nat × Nat)) : Code := scope (.cv v) (wakeAll ds)
/-- `wait` (co_condition_variable.h:53-88). -/
def cvWait (v m c n k : Nat) (ds : List (Nat × Nat)) : Code := cvPark v m c ds ++ [yield] ++ mLock m c n k
/-- The callback of the timer of `wait_until`, run by `co_timer::run` (co_condition_variable.h:96-101, 131-136, co_timer.cpp:122-129). -/
def cvTimeout (t v c e : Nat) : Code := tRun t (scope (.cv v) (leaveWait c e))
/-- `wait_until` by `c` on `e` with timer `t` (co_condition_variable.h:90-117; with a predicate, 125-157, it is repeated). -/
def cvWaitUntil (t v m c e n k : Nat) (ts : List Nat) (ds : List (Nat × Nat)) : Code :=
  scope (.sched e) (tStart t ts ++ cvPark v m c ds ++ [unlock (.sched e), yield, lock (.sched e)] ++ mLock m c n k ++ tStart t ts)
/-- `wait_ctx` of `d` on `e` for `c` (co_env.cpp:154-187). -/
def waitCtx (c d e : Nat) (cs : List Nat) (rs : List (List Nat)) : Code :=
  getPrio d ++ getPrio c ++ setPrioOwn d e ++
    scope (.fin c) (scope (.sched e) (stateC c ++ tscope (.ph c) (enterWait d ++ sub (.evF c)))) ++ scheduleSwitch e d c cs rs ++ setPrioOwn d e
/-- `wait_ctx` with a time-out, with timer `t` (co_env.cpp:99-152). -/
def waitCtxFor (c d e t : Nat) (ts cs : List Nat) (rs : List (List Nat)) : Code :=
  getPrio d ++ getPrio c ++ setPrioOwn d e ++
    scope (.fin c) (scope (.sched e) (stateC c ++ tscope (.ph c) (enterWait d ++ sub (.evF c)) ++ tGet t ++ tStart t ts)) ++
    scheduleSwitch e d c cs rs ++ scope (.fin c) (stateC c) ++ setPrioOwn d e

/-- What coroutines and threads may run: the functions above in any order; a branch may leave out calls (`skip`). With `tmr` also timers and
timed waits; with `out` also priorities changed by another coroutine (co_co.h, `set_priority` of a handle). -/
inductive Lib (tmr out : Bool) : Code → Prop
  | nil : Lib tmr out []
  | app (a b) : Lib tmr out a → Lib tmr out b → Lib tmr out (a ++ b)
  | skip (a c b) : Lib tmr out (a ++ c ++ b) → Lib tmr out c → Lib tmr out (a ++ b)
  | yield : Lib tmr out [yield]
  | flagC (c) : Lib tmr out (flagC c)
  | flagE (e) : Lib tmr out (flagE e)
  | stateC (c) : Lib tmr out (stateC c)
  | getStateE (e) : Lib tmr out (getStateE e)
  | setStateE (e) : Lib tmr out (setStateE e)
  | getPrio (c) : Lib tmr out (getPrio c)
  | setPrioOwn (c e) : Lib tmr out (setPrioOwn c e)
  | enterWait (c) : Lib tmr out (enterWait c)
  | leaveWait (c e) : Lib tmr out (leaveWait c e)
  | finish (c ds) : Lib tmr out (finish c ds)
  | addCtx (e c) : Lib tmr out (addCtx e c)
  | removeCtx (e c) : Lib tmr out (removeCtx e c)
  | wakeUp (e) : Lib tmr out (wakeUp e)
  | workload (e) : Lib tmr out (workload e)
  | scheduleSwitch (e c d cs rs) : Lib tmr out (scheduleSwitch e c d cs rs)
  | sleepIfNeed (e c rs) : Lib tmr out (sleepIfNeed e c rs)
  | startRoutine (e) : Lib tmr out (startRoutine e)
  | stopSchedule (e) : Lib tmr out (stopSchedule e)
  | tGet (t) : Lib tmr out (tGet t)
  | createEnv (e) : Lib tmr out (createEnv e)
  | createCtx (c e es e') : Lib tmr out (createCtx c e es e')
  | removeEnv : Lib tmr out removeEnv
  | createFromThread (e) : Lib tmr out (createFromThread e)
  | setCleanUp (es) : Lib tmr out (setCleanUp es)
  | cleanRound (es) : Lib tmr out (cleanRound es)
  | timing : Lib tmr out timing
  | monitorRound (es cs c e) : Lib tmr out (monitorRound es cs c e)
  | getBest (es e) : Lib tmr out (getBest es e)
  | forceSchedule (es) : Lib tmr out (forceSchedule es)
  | redistribute (es cs e) : Lib tmr out (redistribute es cs e)
  | destroyRedundant (es) : Lib tmr out (destroyRedundant es)
  | steal (es cs c) : Lib tmr out (steal es cs c)
  | mLock (m c n k) : Lib tmr out (mLock m c n k)
  | mTry (m) : Lib tmr out (mTry m)
  | mUnlock (m ds) : Lib tmr out (mUnlock m ds)
  | cvWait (v m c n k ds) : Lib tmr out (cvWait v m c n k ds)
  | cvNotify (v ds) : Lib tmr out (cvNotify v ds)
  | waitCtx (c d e cs rs) : Lib tmr out (waitCtx c d e cs rs)
  | ctxInfo (c) : Lib tmr out (ctxInfo c)
  | envInfo (e i cs) : Lib tmr out (envInfo e i cs)
  | managerInfo (es cs ts i) : Lib tmr out (managerInfo es cs ts i)
  | tStart (t ts) : tmr = true → Lib tmr out (tStart t ts)
  | tRun (t cb) : tmr = true → Lib tmr out cb → Lib tmr out (tRun t cb)
  | timerRound (f ts c e es e') : tmr = true → Lib tmr out (timerRound f ts c e es e')
  | cvTimeout (t v c e) : tmr = true → Lib tmr out (cvTimeout t v c e)
  | cvWaitUntil (t v m c e n k ts ds) : tmr = true → Lib tmr out (cvWaitUntil t v m c e n k ts ds)
  | waitCtxFor (c d e t ts cs rs) : tmr = true → Lib tmr out (waitCtxFor c d e t ts cs rs)
  | setPrio (c e) : out = true → Lib tmr out (setPrio c e)

/-! ## The order -/

/-- All the locks held come before `n`, and with gated locks their gates are held. (Concerns co_env.cpp:58-768, co_manager.cpp:23-560.) -/
def Low (n : Nat) (h : Lk → Nat) : Prop := ∀ k, 0 < h k → rank k < n

/-- With gated locks their gates are held. (Concerns co_env.cpp:58-768, co_manager.cpp:23-560.) -/
def Gated (h : Lk → Nat) : Prop := ∀ k g, 0 < h k → gate k = some g → 0 < h g

/-- One more `l`. (Concerns co_env.cpp:58-768, co_manager.cpp:23-560.) -/
def inc (h : Lk → Nat) (l : Lk) : Lk → Nat := set h l (h l + 1)

theorem inc_pos (h : Lk → Nat) (l k : Lk) : 0 < inc h l k ↔ k = l ∨ 0 < h k := set_pos h l k (h l)

theorem Low.inc {n : Nat} {h : Lk → Nat} {l : Lk} (hl : rank l < n) (hh : Low n h) : Low n (inc h l) := fun k hk => by
  rcases (inc_pos h l k).mp hk with rfl | hk
  · exact hl
  · exact hh k hk

theorem Low.mono {n m : Nat} {h : Lk → Nat} (hh : Low n h) (hm : n ≤ m) : Low m h := fun k hk => Nat.lt_of_lt_of_le (hh k hk) hm

theorem Gated.inc {h : Lk → Nat} {l : Lk} (hl : ∀ g, gate l = some g → 0 < h g) (hh : Gated h) : Gated (inc h l) := fun k g hk hg => by
  rw [inc_pos] at hk ⊢
  rcases hk with rfl | hk
  · exact .inr (hl g hg)
  · exact .inr (hh k g hk hg)

/-- A piece of code obeys the order if it starts with the locks `h`, and leaves the locks as they were. (Concerns co_env.cpp:58-768, co_manager.cpp:23-560.) -/
def T (h : Lk → Nat) (b : Code) : Prop := chk native rank gate h b ∧ after h b = h

theorem T.nil {h : Lk → Nat} : T h [] := ⟨trivial, rfl⟩

theorem T.app {h : Lk → Nat} {a b : Code} (ha : T h a) (hb : T h b) : T h (a ++ b) := by
  unfold T; rw [chk_app, after_app, ha.2]; exact ⟨⟨ha.1, hb.1⟩, hb.2⟩

theorem T.flatMap {α : Type} {h : Lk → Nat} {as : List α} {f : α → Code} (hf : ∀ a, T h (f a)) : T h (as.flatMap f) := by
  induction as with
  | nil => exact T.nil
  | cons a as ih => exact (hf a).app ih

theorem inc_undo (h : Lk → Nat) (l : Lk) : set (inc h l) l (inc h l l - 1) = h := set_undo h l

theorem T.scope {h : Lk → Nat} {l : Lk} {b : Code} (hc : Can native rank gate h l) (hb : T (inc h l) b) : T h (scope l b) := by
  have h1 : after (set h l (h l + 1)) b = inc h l := hb.2
  refine ⟨?_, ?_⟩
  · simp only [LockOrder.scope, chk_app, chk, after, after_app, h1]
    exact ⟨⟨⟨hc, trivial⟩, hb.1⟩, by simp [inc], trivial⟩
  · simp only [LockOrder.scope, after_app, after, h1, inc_undo]

theorem T.tscope {h : Lk → Nat} {l : Lk} {b : Code} (hb : T (inc h l) b) : T h (tscope l b) := by
  have h1 : after (set h l (h l + 1)) b = inc h l := hb.2
  refine ⟨?_, ?_⟩
  · simp only [LockOrder.tscope, chk_app, chk, after, after_app, h1]
    exact ⟨⟨trivial, hb.1⟩, by simp [inc], trivial⟩
  · simp only [LockOrder.tscope, after_app, after, h1, inc_undo]

theorem T.cycle {h : Lk → Nat} {l : Lk} (hc : Can native rank gate h l) : T (inc h l) [unlock l, lock l] := by
  refine ⟨?_, ?_⟩
  · simp only [chk, inc_undo]; exact ⟨by simp [inc], hc, trivial⟩
  · simp only [after, inc_undo]; rfl

theorem T.yield {h : Lk → Nat} (hn : Low 3 h) : T h [LOp.yield] :=
  ⟨⟨fun l hl => by have := hn l hl; cases l <;> simp_all [rank, native], trivial⟩, rfl⟩

theorem T.ycycle {h : Lk → Nat} {l : Lk} (hn : Low 3 h) (hc : Can native rank gate h l) : T (inc h l) [unlock l, LOp.yield, lock l] := by
  refine ⟨?_, ?_⟩
  · simp only [chk, inc_undo]
    exact ⟨by simp [inc], fun k hk => by have := hn k hk; cases k <;> simp_all [rank, native], hc, trivial⟩
  · simp only [after, inc_undo]; rfl

theorem can_re {h : Lk → Nat} {l : Lk} (hl : 0 < h l) (hn : native l = true) : Can native rank gate h l := .inl ⟨hl, hn⟩

theorem can_low {h : Lk → Nat} {l : Lk} (hl : Low (rank l) h) (hg : Gated h) : Can native rank gate h l := .inr ⟨fun k hk => .inl (hl k hk), hg⟩

theorem can_gate {h : Lk → Nat} {l g : Lk} (hl : gate l = some g) (hg : 0 < h g) (hh : Gated h) : Can native rank gate h l :=
  .inr ⟨fun _ _ => .inr ⟨g, hl, hg⟩, hh⟩

theorem Gated.inc0 {h : Lk → Nat} {l : Lk} (hl : gate l = none) (hh : Gated h) : Gated (LibLocks.inc h l) :=
  hh.inc fun g hg => by rw [hl] at hg; cases hg

theorem Gated.inc1 {h : Lk → Nat} {l g : Lk} (hl : gate l = some g) (hg : 0 < h g) (hh : Gated h) : Gated (LibLocks.inc h l) :=
  hh.inc fun g' hg' => by rw [hl] at hg'; cases hg'; exact hg

/-- Proves that a lock is held. -/
macro "pos_tac" : tactic => `(tactic| first | assumption | focus (simp only [inc_pos]; simp; done) | focus (simp only [inc_pos]; simp [*]; done))

/-- Proves `Low`. -/
macro "low_tac" : tactic => `(tactic| (
  repeat (refine Low.inc (Nat.le_of_ble_eq_true rfl) ?_)
  refine Low.mono (n := ?_) ?_ ?_
  rotate_left
  assumption
  exact Nat.le_of_ble_eq_true rfl))

/-- Proves `Gated`. -/
macro "gate_tac" : tactic => `(tactic| (
  repeat first
    | refine Gated.inc0 rfl ?_
    | (refine Gated.inc1 rfl ?_ ?_; pos_tac)
  assumption))

/-- Proves that a lock may be waited for. -/
macro "can_tac" : tactic => `(tactic| first
  | (refine can_re ?_ rfl; pos_tac)
  | (refine can_low ?_ ?_; low_tac; gate_tac)
  | (refine can_gate rfl ?_ ?_; pos_tac; gate_tac))

/-- Goes through a piece of code. -/
macro "ord_tac" : tactic => `(tactic| (
  repeat' first
    | exact T.nil
    | assumption
    | (refine T.scope ?_ ?_; can_tac)
    | refine T.tscope ?_
    | (refine T.flatMap fun _ => ?_)
    | (refine T.cycle ?_; can_tac)
    | (refine T.ycycle ?_ ?_; low_tac; can_tac)
    | (refine T.yield ?_; low_tac)
    | with_reducible refine T.app ?_ ?_))

/-- The locks are afterwards what they were. (Concerns co_env.cpp:58-768, co_manager.cpp:23-560.) -/
def A (h : Lk → Nat) (b : Code) : Prop := after h b = h

theorem A.nil {h : Lk → Nat} : A h [] := rfl
theorem A.app {h : Lk → Nat} {a b : Code} (ha : A h a) (hb : A h b) : A h (a ++ b) := by unfold A at *; rw [after_app, ha, hb]
theorem A.flatMap {α : Type} {h : Lk → Nat} {as : List α} {f : α → Code} (hf : ∀ a, A h (f a)) : A h (as.flatMap f) := by
  induction as with
  | nil => exact A.nil
  | cons a as ih => exact (hf a).app ih
theorem A.scope {h : Lk → Nat} {l : Lk} {b : Code} (hb : A (inc h l) b) : A h (scope l b) := by
  have h1 : after (set h l (h l + 1)) b = inc h l := hb
  simp only [A, LockOrder.scope, after_app, after, h1, inc_undo]
theorem A.tscope {h : Lk → Nat} {l : Lk} {b : Code} (hb : A (inc h l) b) : A h (tscope l b) := by
  have h1 : after (set h l (h l + 1)) b = inc h l := hb
  simp only [A, LockOrder.tscope, after_app, after, h1, inc_undo]
theorem A.cycle {h : Lk → Nat} {l : Lk} : A (inc h l) [unlock l, lock l] := by simp only [A, after, inc_undo]; rfl
theorem A.ycycle {h : Lk → Nat} {l : Lk} : A (inc h l) [unlock l, LOp.yield, lock l] := by simp only [A, after, inc_undo]; rfl
theorem A.yield {h : Lk → Nat} : A h [LOp.yield] := rfl

section
set_option linter.unusedSimpArgs false
theorem b_flagC (c : Nat) (h : Lk → Nat) : A h (flagC c) := by
  simp (maxDischargeDepth := 30) only [flagC, A.nil, A.app, A.flatMap, A.scope, A.tscope, A.cycle, A.ycycle, A.yield, implies_true]
theorem b_flagE (e : Nat) (h : Lk → Nat) : A h (flagE e) := by
  simp (maxDischargeDepth := 30) only [flagE, A.nil, A.app, A.flatMap, A.scope, A.tscope, A.cycle, A.ycycle, A.yield, implies_true]
theorem b_stateC (c : Nat) (h : Lk → Nat) : A h (stateC c) := by
  simp (maxDischargeDepth := 30) only [stateC, A.nil, A.app, A.flatMap, A.scope, A.tscope, A.cycle, A.ycycle, A.yield, implies_true]
theorem b_getStateE (e : Nat) (h : Lk → Nat) : A h (getStateE e) := by
  simp (maxDischargeDepth := 30) only [getStateE, A.nil, A.app, A.flatMap, A.scope, A.tscope, A.cycle, A.ycycle, A.yield, implies_true]
theorem b_setStateE (e : Nat) (h : Lk → Nat) : A h (setStateE e) := by
  simp (maxDischargeDepth := 30) only [setStateE, A.nil, A.app, A.flatMap, A.scope, A.tscope, A.cycle, A.ycycle, A.yield, implies_true]
theorem b_getPrio (c : Nat) (h : Lk → Nat) : A h (getPrio c) := by
  simp (maxDischargeDepth := 30) only [getPrio, A.nil, A.app, A.flatMap, A.scope, A.tscope, A.cycle, A.ycycle, A.yield, implies_true]
theorem b_updMin (e : Nat) (h : Lk → Nat) : A h (updMin e) := by
  simp (maxDischargeDepth := 30) only [updMin, A.nil, A.app, A.flatMap, A.scope, A.tscope, A.cycle, A.ycycle, A.yield, implies_true]
theorem b_wakeUp (e : Nat) (h : Lk → Nat) : A h (wakeUp e) := by
  simp (maxDischargeDepth := 30) only [wakeUp, A.nil, A.app, A.flatMap, A.scope, A.tscope, A.cycle, A.ycycle, A.yield, implies_true]
theorem b_handlePrio (e c : Nat) (h : Lk → Nat) : A h (handlePrio e c) := by
  simp (maxDischargeDepth := 30) only [handlePrio, b_getPrio, b_updMin, A.nil, A.app, A.flatMap, A.scope, A.tscope, A.cycle, A.ycycle, A.yield, implies_true]
theorem b_setPrio (c e : Nat) (h : Lk → Nat) : A h (setPrio c e) := by
  simp (maxDischargeDepth := 30) only [setPrio, pub, b_flagC, b_handlePrio, A.nil, A.app, A.flatMap, A.scope, A.tscope, A.cycle, A.ycycle, A.yield, implies_true]
theorem b_setPrioOwn (c e : Nat) (h : Lk → Nat) : A h (setPrioOwn c e) := by
  simp (maxDischargeDepth := 30) only [setPrioOwn, b_setPrio, A.nil, A.app, A.flatMap, A.scope, A.tscope, A.cycle, A.ycycle, A.yield, implies_true]
theorem b_canSchedule (c : Nat) (h : Lk → Nat) : A h (canSchedule c) := by
  simp (maxDischargeDepth := 30) only [canSchedule, b_flagC, b_stateC, A.nil, A.app, A.flatMap, A.scope, A.tscope, A.cycle, A.ycycle, A.yield, implies_true]
theorem b_canMove (c : Nat) (h : Lk → Nat) : A h (canMove c) := by
  simp (maxDischargeDepth := 30) only [canMove, b_flagC, b_stateC, A.nil, A.app, A.flatMap, A.scope, A.tscope, A.cycle, A.ycycle, A.yield, implies_true]
theorem b_enterWait (c : Nat) (h : Lk → Nat) : A h (enterWait c) := by
  simp (maxDischargeDepth := 30) only [enterWait, b_flagC, A.nil, A.app, A.flatMap, A.scope, A.tscope, A.cycle, A.ycycle, A.yield, implies_true]
theorem b_leaveWait (c e : Nat) (h : Lk → Nat) : A h (leaveWait c e) := by
  simp (maxDischargeDepth := 30) only [leaveWait, b_flagC, b_getPrio, b_updMin, b_wakeUp, A.nil, A.app, A.flatMap, A.scope, A.tscope, A.cycle, A.ycycle, A.yield, implies_true]
theorem b_wakeAll (ds : List (Nat × Nat)) (h : Lk → Nat) : A h (wakeAll ds) := by
  simp (maxDischargeDepth := 30) only [wakeAll, b_leaveWait, A.nil, A.app, A.flatMap, A.scope, A.tscope, A.cycle, A.ycycle, A.yield, implies_true]
theorem b_finish (c : Nat) (ds : List (Nat × Nat)) (h : Lk → Nat) : A h (finish c ds) := by
  simp (maxDischargeDepth := 30) only [finish, pub, b_stateC, b_wakeAll, A.nil, A.app, A.flatMap, A.scope, A.tscope, A.cycle, A.ycycle, A.yield, implies_true]
theorem b_ctxInfo (c : Nat) (h : Lk → Nat) : A h (ctxInfo c) := by
  simp (maxDischargeDepth := 30) only [ctxInfo, b_flagC, b_stateC, A.nil, A.app, A.flatMap, A.scope, A.tscope, A.cycle, A.ycycle, A.yield, implies_true]
theorem b_workload (e : Nat) (h : Lk → Nat) : A h (workload e) := by
  simp (maxDischargeDepth := 30) only [workload, A.nil, A.app, A.flatMap, A.scope, A.tscope, A.cycle, A.ycycle, A.yield, implies_true]
theorem b_moveHere (e c : Nat) (h : Lk → Nat) : A h (moveHere e c) := by
  simp (maxDischargeDepth := 30) only [moveHere, b_getPrio, b_getStateE, b_setStateE, b_updMin, b_wakeUp, A.nil, A.app, A.flatMap, A.scope, A.tscope, A.cycle, A.ycycle, A.yield, implies_true]
theorem b_addCtx (e c : Nat) (h : Lk → Nat) : A h (addCtx e c) := by
  simp (maxDischargeDepth := 30) only [addCtx, b_flagC, b_getStateE, b_moveHere, A.nil, A.app, A.flatMap, A.scope, A.tscope, A.cycle, A.ycycle, A.yield, implies_true]
theorem b_removeCtx (e c : Nat) (h : Lk → Nat) : A h (removeCtx e c) := by
  simp (maxDischargeDepth := 30) only [removeCtx, b_getPrio, A.nil, A.app, A.flatMap, A.scope, A.tscope, A.cycle, A.ycycle, A.yield, implies_true]
theorem b_removeDetached (e : Nat) (cs : List Nat) (h : Lk → Nat) : A h (removeDetached e cs) := by
  simp (maxDischargeDepth := 30) only [removeDetached, b_flagC, b_removeCtx, b_stateC, A.nil, A.app, A.flatMap, A.scope, A.tscope, A.cycle, A.ycycle, A.yield, implies_true]
theorem b_choose (e : Nat) (cs : List Nat) (h : Lk → Nat) : A h (choose e cs) := by
  simp (maxDischargeDepth := 30) only [choose, b_canSchedule, A.nil, A.app, A.flatMap, A.scope, A.tscope, A.cycle, A.ycycle, A.yield, implies_true]
theorem b_sleepIfNeed (e c : Nat) (rs : List (List Nat)) (h : Lk → Nat) : A h (sleepIfNeed e c rs) := by
  refine A.scope (A.flatMap fun cs => ?_)
  simp (maxDischargeDepth := 30) only [sleepIfNeed, sleepRound, b_choose, b_flagC, b_getStateE, A.nil, A.app, A.flatMap, A.scope, A.tscope, A.cycle, A.ycycle, A.yield, implies_true]
theorem b_scheduleSwitch (e c d : Nat) (cs : List Nat) (rs : List (List Nat)) (h : Lk → Nat) : A h (scheduleSwitch e c d cs rs) := by
  simp (maxDischargeDepth := 30) only [scheduleSwitch, b_choose, b_flagC, b_flagE, b_getStateE, b_removeDetached, b_setStateE, b_sleepIfNeed, b_stateC, A.nil, A.app, A.flatMap, A.scope, A.tscope, A.cycle, A.ycycle, A.yield, implies_true]
theorem b_takeMovable (e : Nat) (cs : List Nat) (h : Lk → Nat) : A h (takeMovable e cs) := by
  simp (maxDischargeDepth := 30) only [takeMovable, b_canMove, A.nil, A.app, A.flatMap, A.scope, A.tscope, A.cycle, A.ycycle, A.yield, implies_true]
theorem b_isBlocked (e : Nat) (h : Lk → Nat) : A h (isBlocked e) := by
  simp (maxDischargeDepth := 30) only [isBlocked, b_flagE, b_getStateE, A.nil, A.app, A.flatMap, A.scope, A.tscope, A.cycle, A.ycycle, A.yield, implies_true]
theorem b_stopSchedule (e : Nat) (h : Lk → Nat) : A h (stopSchedule e) := by
  simp (maxDischargeDepth := 30) only [stopSchedule, b_flagE, b_setStateE, b_wakeUp, A.nil, A.app, A.flatMap, A.scope, A.tscope, A.cycle, A.ycycle, A.yield, implies_true]
theorem b_startRoutine (e : Nat) (h : Lk → Nat) : A h (startRoutine e) := by
  simp (maxDischargeDepth := 30) only [startRoutine, b_flagE, b_setStateE, A.nil, A.app, A.flatMap, A.scope, A.tscope, A.cycle, A.ycycle, A.yield, implies_true]
theorem b_envInfo (e i : Nat) (cs : List Nat) (h : Lk → Nat) : A h (envInfo e i cs) := by
  simp (maxDischargeDepth := 30) only [envInfo, b_ctxInfo, b_flagE, b_getStateE, A.nil, A.app, A.flatMap, A.scope, A.tscope, A.cycle, A.ycycle, A.yield, implies_true]
theorem b_tGet (t : Nat) (h : Lk → Nat) : A h (tGet t) := by
  simp (maxDischargeDepth := 30) only [tGet, A.nil, A.app, A.flatMap, A.scope, A.tscope, A.cycle, A.ycycle, A.yield, implies_true]
theorem b_queueOp (ts : List Nat) (h : Lk → Nat) : A h (queueOp ts) := by
  simp (maxDischargeDepth := 30) only [queueOp, b_tGet, A.nil, A.app, A.flatMap, A.scope, A.tscope, A.cycle, A.ycycle, A.yield, implies_true]
theorem b_tStart (t : Nat) (ts : List Nat) (h : Lk → Nat) : A h (tStart t ts) := by
  simp (maxDischargeDepth := 30) only [tStart, b_queueOp, A.nil, A.app, A.flatMap, A.scope, A.tscope, A.cycle, A.ycycle, A.yield, implies_true]
theorem b_createEnv (e : Nat) (h : Lk → Nat) : A h (createEnv e) := by
  simp (maxDischargeDepth := 30) only [createEnv, sub, b_flagE, A.nil, A.app, A.flatMap, A.scope, A.tscope, A.cycle, A.ycycle, A.yield, implies_true]
theorem b_getBest (es : List Nat) (e : Nat) (h : Lk → Nat) : A h (getBest es e) := by
  simp (maxDischargeDepth := 30) only [getBest, b_createEnv, b_flagE, b_getStateE, b_workload, A.nil, A.app, A.flatMap, A.scope, A.tscope, A.cycle, A.ycycle, A.yield, implies_true]
theorem b_createCtx (c e : Nat) (es : List Nat) (e' : Nat) (h : Lk → Nat) : A h (createCtx c e es e') := by
  simp (maxDischargeDepth := 30) only [createCtx, sub, b_addCtx, b_flagC, b_getBest, A.nil, A.app, A.flatMap, A.scope, A.tscope, A.cycle, A.ycycle, A.yield, implies_true]
theorem b_removeEnv (h : Lk → Nat) : A h removeEnv := by
  simp (maxDischargeDepth := 30) only [removeEnv, A.nil, A.app, A.flatMap, A.scope, A.tscope, A.cycle, A.ycycle, A.yield, implies_true]
theorem b_createFromThread (e : Nat) (h : Lk → Nat) : A h (createFromThread e) := by
  simp (maxDischargeDepth := 30) only [createFromThread, sub, A.nil, A.app, A.flatMap, A.scope, A.tscope, A.cycle, A.ycycle, A.yield, implies_true]
theorem b_setCleanUp (es : List Nat) (h : Lk → Nat) : A h (setCleanUp es) := by
  simp (maxDischargeDepth := 30) only [setCleanUp, b_flagE, b_removeEnv, b_stopSchedule, A.nil, A.app, A.flatMap, A.scope, A.tscope, A.cycle, A.ycycle, A.yield, implies_true]
theorem b_cleanRound (es : List Nat) (h : Lk → Nat) : A h (cleanRound es) := by
  simp (maxDischargeDepth := 30) only [cleanRound, b_setCleanUp, A.nil, A.app, A.flatMap, A.scope, A.tscope, A.cycle, A.ycycle, A.yield, implies_true]
theorem b_forceSchedule (es : List Nat) (h : Lk → Nat) : A h (forceSchedule es) := by
  simp (maxDischargeDepth := 30) only [forceSchedule, b_flagE, b_isBlocked, b_workload, A.nil, A.app, A.flatMap, A.scope, A.tscope, A.cycle, A.ycycle, A.yield, implies_true]
theorem b_collect (cs : List Nat) (e : Nat) (h : Lk → Nat) : A h (collect cs e) := by
  simp (maxDischargeDepth := 30) only [collect, b_flagE, b_isBlocked, b_setStateE, b_takeMovable, A.nil, A.app, A.flatMap, A.scope, A.tscope, A.cycle, A.ycycle, A.yield, implies_true]
theorem b_redistribute (es cs : List Nat) (e' : Nat) (h : Lk → Nat) : A h (redistribute es cs e') := by
  simp (maxDischargeDepth := 30) only [redistribute, b_collect, b_getBest, b_moveHere, A.nil, A.app, A.flatMap, A.scope, A.tscope, A.cycle, A.ycycle, A.yield, implies_true]
theorem b_destroyRedundant (es : List Nat) (h : Lk → Nat) : A h (destroyRedundant es) := by
  simp (maxDischargeDepth := 30) only [destroyRedundant, b_flagE, b_getStateE, b_stopSchedule, b_workload, A.nil, A.app, A.flatMap, A.scope, A.tscope, A.cycle, A.ycycle, A.yield, implies_true]
theorem b_stealFrom (e c : Nat) (cs : List Nat) (f : Nat) (h : Lk → Nat) : A h (stealFrom e c cs f) := by
  simp (maxDischargeDepth := 30) only [stealFrom, b_getStateE, b_moveHere, b_takeMovable, A.nil, A.app, A.flatMap, A.scope, A.tscope, A.cycle, A.ycycle, A.yield, implies_true]
theorem b_stealInto (es cs : List Nat) (c e : Nat) (h : Lk → Nat) : A h (stealInto es cs c e) := by
  simp (maxDischargeDepth := 30) only [stealInto, b_stealFrom, A.nil, A.app, A.flatMap, A.scope, A.tscope, A.cycle, A.ycycle, A.yield, implies_true]
theorem b_steal (es cs : List Nat) (c : Nat) (h : Lk → Nat) : A h (steal es cs c) := by
  simp (maxDischargeDepth := 30) only [steal, b_flagE, b_getStateE, b_stealInto, A.nil, A.app, A.flatMap, A.scope, A.tscope, A.cycle, A.ycycle, A.yield, implies_true]
theorem b_timing (h : Lk → Nat) : A h timing := by
  simp (maxDischargeDepth := 30) only [timing, A.nil, A.app, A.flatMap, A.scope, A.tscope, A.cycle, A.ycycle, A.yield, implies_true]
theorem b_monitorRound (es cs : List Nat) (c e' : Nat) (h : Lk → Nat) : A h (monitorRound es cs c e') := by
  simp (maxDischargeDepth := 30) only [monitorRound, pub, b_destroyRedundant, b_forceSchedule, b_redistribute, b_steal, b_timing, A.nil, A.app, A.flatMap, A.scope, A.tscope, A.cycle, A.ycycle, A.yield, implies_true]
theorem b_timerRound (f : Nat) (ts : List Nat) (c e : Nat) (es : List Nat) (e' : Nat) (h : Lk → Nat) : A h (timerRound f ts c e es e') := by
  simp (maxDischargeDepth := 30) only [timerRound, b_createCtx, b_tGet, b_tStart, A.nil, A.app, A.flatMap, A.scope, A.tscope, A.cycle, A.ycycle, A.yield, implies_true]
theorem b_managerInfo (es cs ts : List Nat) (i : Nat) (h : Lk → Nat) : A h (managerInfo es cs ts i) := by
  simp (maxDischargeDepth := 30) only [managerInfo, b_envInfo, b_tGet, A.nil, A.app, A.flatMap, A.scope, A.tscope, A.cycle, A.ycycle, A.yield, implies_true]
theorem b_mLock (m c n k : Nat) (h : Lk → Nat) : A h (mLock m c n k) := by
  simp (maxDischargeDepth := 30) only [mLock, sleepTurn, spinTurn, b_enterWait, A.nil, A.app, A.flatMap, A.scope, A.tscope, A.cycle, A.ycycle, A.yield, implies_true]
theorem b_mTry (m : Nat) (h : Lk → Nat) : A h (mTry m) := by
  simp (maxDischargeDepth := 30) only [mTry, A.nil, A.app, A.flatMap, A.scope, A.tscope, A.cycle, A.ycycle, A.yield, implies_true]
theorem b_mUnlock (m : Nat) (ds : List (Nat × Nat)) (h : Lk → Nat) : A h (mUnlock m ds) := by
  simp (maxDischargeDepth := 30) only [mUnlock, b_wakeAll, A.nil, A.app, A.flatMap, A.scope, A.tscope, A.cycle, A.ycycle, A.yield, implies_true]
theorem b_cvPark (v m c : Nat) (ds : List (Nat × Nat)) (h : Lk → Nat) : A h (cvPark v m c ds) := by
  simp (maxDischargeDepth := 30) only [cvPark, b_enterWait, b_mUnlock, A.nil, A.app, A.flatMap, A.scope, A.tscope, A.cycle, A.ycycle, A.yield, implies_true]
theorem b_cvNotify (v : Nat) (ds : List (Nat × Nat)) (h : Lk → Nat) : A h (cvNotify v ds) := by
  simp (maxDischargeDepth := 30) only [cvNotify, b_wakeAll, A.nil, A.app, A.flatMap, A.scope, A.tscope, A.cycle, A.ycycle, A.yield, implies_true]
theorem b_cvWait (v m c n k : Nat) (ds : List (Nat × Nat)) (h : Lk → Nat) : A h (cvWait v m c n k ds) := by
  simp (maxDischargeDepth := 30) only [cvWait, b_cvPark, b_mLock, A.nil, A.app, A.flatMap, A.scope, A.tscope, A.cycle, A.ycycle, A.yield, implies_true]
theorem b_cvTimeout (t v c e : Nat) (h : Lk → Nat) : A h (cvTimeout t v c e) := by
  simp (maxDischargeDepth := 30) only [cvTimeout, tRun, b_leaveWait, A.nil, A.app, A.flatMap, A.scope, A.tscope, A.cycle, A.ycycle, A.yield, implies_true]
theorem b_cvWaitUntil (t v m c e n k : Nat) (ts : List Nat) (ds : List (Nat × Nat)) (h : Lk → Nat) : A h (cvWaitUntil t v m c e n k ts ds) := by
  simp (maxDischargeDepth := 30) only [cvWaitUntil, b_cvPark, b_mLock, b_tStart, A.nil, A.app, A.flatMap, A.scope, A.tscope, A.cycle, A.ycycle, A.yield, implies_true]
theorem b_waitCtx (c d e : Nat) (cs : List Nat) (rs : List (List Nat)) (h : Lk → Nat) : A h (waitCtx c d e cs rs) := by
  simp (maxDischargeDepth := 30) only [waitCtx, sub, b_enterWait, b_getPrio, b_scheduleSwitch, b_setPrioOwn, b_stateC, A.nil, A.app, A.flatMap, A.scope, A.tscope, A.cycle, A.ycycle, A.yield, implies_true]
theorem b_waitCtxFor (c d e t : Nat) (ts cs : List Nat) (rs : List (List Nat)) (h : Lk → Nat) : A h (waitCtxFor c d e t ts cs rs) := by
  simp (maxDischargeDepth := 30) only [waitCtxFor, sub, b_enterWait, b_getPrio, b_scheduleSwitch, b_setPrioOwn, b_stateC, b_tGet, b_tStart, A.nil, A.app, A.flatMap, A.scope, A.tscope, A.cycle, A.ycycle, A.yield, implies_true]

end

section
variable {h : Lk → Nat}

theorem t_leaveWait (c e) (hl : Low 10 h) (hg : Gated h) : T h (leaveWait c e) := by
  unfold leaveWait flagC getPrio updMin wakeUp; ord_tac
theorem t_wakeAll (ds) (hl : Low 10 h) (hg : Gated h) : T h (wakeAll ds) := T.flatMap fun _ => t_leaveWait _ _ hl hg
theorem t_moveHere (e c) (hl : Low 10 h) (hg : Gated h) : T h (moveHere e c) := by
  unfold moveHere getStateE getPrio updMin setStateE wakeUp; ord_tac
theorem t_moveHere' (e c) (hs : 0 < h (.sched e)) (hl : Low 11 h) (hg : Gated h) : T h (moveHere e c) := by
  unfold moveHere getStateE getPrio updMin setStateE wakeUp; ord_tac
theorem t_setPrioOwn (c e) (hl : Low 11 h) (hg : Gated h) : T h (setPrioOwn c e) := by
  unfold setPrioOwn setPrio flagC pub handlePrio getPrio updMin; ord_tac
theorem t_finish (c ds) (hl : Low 4 h) (hg : Gated h) : T h (finish c ds) := by
  unfold finish pub wakeAll leaveWait stateC flagC getPrio updMin wakeUp; ord_tac
theorem t_choose (e cs) (hl : Low 13 h) (hg : Gated h) : T h (choose e cs) := by
  unfold choose canSchedule stateC flagC; ord_tac
theorem t_sleepIfNeed (e c rs) (hl : Low 10 h) (hg : Gated h) : T h (sleepIfNeed e c rs) := by
  unfold sleepIfNeed sleepRound choose canSchedule getStateE stateC flagC; ord_tac
theorem t_scheduleSwitch (e c d cs rs) (hl : Low 3 h) (hg : Gated h) : T h (scheduleSwitch e c d cs rs) := by
  have := t_sleepIfNeed e c rs (hl.mono (by decide)) hg
  unfold scheduleSwitch removeDetached removeCtx choose canSchedule getStateE setStateE stateC flagC flagE getPrio; ord_tac
theorem t_createEnv (e) (he : 0 < h .envs) (hl : Low 16 h) (hg : Gated h) : T h (createEnv e) := by
  unfold createEnv sub flagE; ord_tac
theorem t_createEnv' (e) (hl : Low 8 h) (hg : Gated h) : T h (createEnv e) := by
  unfold createEnv sub flagE; ord_tac
theorem t_getBest (es e) (hl : Low 8 h) (hg : Gated h) : T h (getBest es e) := by
  unfold getBest createEnv sub flagE getStateE workload; ord_tac
theorem t_getBest' (es e) (he : 0 < h .envs) (hl : Low 13 h) (hg : Gated h) : T h (getBest es e) := by
  unfold getBest createEnv sub flagE getStateE workload; ord_tac
theorem t_addCtx (e c) (hl : Low 10 h) (hg : Gated h) : T h (addCtx e c) := by
  have := t_moveHere e c hl hg
  unfold addCtx flagC getStateE; ord_tac
theorem t_createCtx (c e es e') (hl : Low 8 h) (hg : Gated h) : T h (createCtx c e es e') := by
  have h1 := t_addCtx e c (hl.mono (by decide)) hg
  have h2 := t_getBest es e' hl hg
  unfold createCtx sub flagC; ord_tac
theorem t_setCleanUp (es) (hl : Low 8 h) (hg : Gated h) : T h (setCleanUp es) := by
  unfold setCleanUp removeEnv stopSchedule flagE setStateE wakeUp; ord_tac
theorem t_forceSchedule (es) (hl : Low 8 h) (hg : Gated h) : T h (forceSchedule es) := by
  unfold forceSchedule isBlocked workload flagE getStateE; ord_tac
theorem t_takeMovable (e cs) (hs : 0 < h (.sched e)) (hl : Low 13 h) (hg : Gated h) : T h (takeMovable e cs) := by
  unfold takeMovable canMove stateC flagC; ord_tac
theorem t_collect (cs e) (hl : Low 13 h) (hg : Gated h) : T h (collect cs e) := by
  have := t_takeMovable (h := inc h (.sched e)) e cs (by simp [inc_pos]) (hl.inc (show 10 < 13 by decide)) (hg.inc0 rfl)
  unfold collect isBlocked setStateE getStateE flagE; ord_tac
theorem t_redistribute (es cs e) (hl : Low 8 h) (hg : Gated h) : T h (redistribute es cs e) := by
  have l1 : Low 9 (inc h .envs) := (hl.mono (by decide)).inc (by decide)
  have g1 : Gated (inc h .envs) := hg.inc0 rfl
  refine T.scope (can_low hl hg) (T.app (T.flatMap fun e => t_collect cs e (l1.mono (by decide)) g1) (T.flatMap fun c => ?_))
  exact T.app (t_getBest' _ _ (by simp [inc_pos]) (l1.mono (by decide)) g1) (t_moveHere _ _ (l1.mono (by decide)) g1)
theorem t_destroyRedundant (es) (hl : Low 8 h) (hg : Gated h) : T h (destroyRedundant es) := by
  unfold destroyRedundant stopSchedule workload getStateE setStateE wakeUp flagE; ord_tac
theorem t_stealFrom (e c cs f) (hs : 0 < h (.sched e)) (hl : Low 11 h) (hg : Gated h) : T h (stealFrom e c cs f) := by
  have l1 : Low 11 (inc h (.sched f)) := hl.inc (show 10 < 11 by decide)
  have g1 : Gated (inc h (.sched f)) := hg.inc0 rfl
  have h1 := t_takeMovable (h := inc h (.sched f)) f cs (by simp [inc_pos]) (l1.mono (by decide)) g1
  have h2 := t_moveHere' (h := inc h (.sched f)) e c (by simp [inc_pos, hs]) l1 g1
  clear l1 g1
  unfold stealFrom getStateE; ord_tac
theorem t_steal (es cs c) (hl : Low 8 h) (hg : Gated h) : T h (steal es cs c) := by
  have h1 : ∀ e f, T (inc (inc h .envs) (.sched e)) (stealFrom e c cs f) := fun e f =>
    t_stealFrom e c cs f (by simp [inc_pos]) (((hl.mono (by decide)).inc (by decide)).inc (show 10 < 11 by decide)) ((hg.inc0 rfl).inc0 rfl)
  refine T.scope (can_low hl hg) (T.app ?_ (T.flatMap fun e => T.tscope (T.flatMap fun f => h1 e f)))
  unfold getStateE flagE; ord_tac
theorem t_monitorRound (es cs c e) (hl : Low 3 h) (hg : Gated h) : T h (monitorRound es cs c e) := by
  have l1 : Low 8 (inc h .evT) := (hl.mono (by decide)).inc (by decide)
  have g1 : Gated (inc h .evT) := hg.inc0 rfl
  have h1 := t_forceSchedule es l1 g1
  have h2 := t_redistribute es cs e l1 g1
  have h3 := t_destroyRedundant es l1 g1
  have h4 := t_steal es cs c l1 g1
  clear l1 g1
  unfold monitorRound timing pub; ord_tac
theorem t_envInfo (e i cs) (hl : Low 10 h) (hg : Gated h) : T h (envInfo e i cs) := by
  unfold envInfo ctxInfo flagC flagE stateC getStateE; ord_tac
theorem t_managerInfo (es cs ts i) (hl : Low 5 h) (hg : Gated h) : T h (managerInfo es cs ts i) := by
  unfold managerInfo envInfo ctxInfo flagC flagE stateC getStateE tGet; ord_tac
theorem t_mLock (m c n k) (hl : Low 2 h) (hg : Gated h) : T h (mLock m c n k) := by
  unfold mLock spinTurn sleepTurn enterWait flagC; ord_tac
theorem t_mUnlock (m ds) (hl : Low 2 h) (hg : Gated h) : T h (mUnlock m ds) := by
  unfold mUnlock wakeAll leaveWait flagC getPrio updMin wakeUp; ord_tac
theorem t_cvWait (v m c n k ds) (hl : Low 1 h) (hg : Gated h) : T h (cvWait v m c n k ds) := by
  have h1 := t_mUnlock (h := inc h (.cv v)) m ds ((hl.mono (by decide)).inc (show 1 < 2 by decide)) (hg.inc0 rfl)
  have h2 := t_mLock m c n k (hl.mono (by decide)) hg
  unfold cvWait cvPark enterWait flagC; ord_tac
theorem t_cvNotify (v ds) (hl : Low 1 h) (hg : Gated h) : T h (cvNotify v ds) := by
  unfold cvNotify wakeAll leaveWait flagC getPrio updMin wakeUp; ord_tac
theorem t_waitCtx (c d e cs rs) (hl : Low 3 h) (hg : Gated h) : T h (waitCtx c d e cs rs) := by
  have h1 := t_setPrioOwn d e (hl.mono (by decide)) hg
  have h2 := t_scheduleSwitch e d c cs rs hl hg
  unfold waitCtx getPrio stateC enterWait flagC sub; ord_tac
end

theorem low_zero (n : Nat) : Low n (fun _ => 0) := fun k hk => by simp at hk
theorem gated_zero : Gated (fun _ => 0) := fun k g hk => by simp at hk

/-- The whole library leaves the locks as they were. -/
theorem lib_bal {tmr out : Bool} {b : Code} (hb : Lib tmr out b) (h : Lk → Nat) : A h b := by
  induction hb generalizing h with
  | nil => exact A.nil
  | app a b _ _ ha hb => exact (ha h).app (hb h)
  | skip a c b _ _ ha hc =>
    have := ha h
    unfold A at *
    rw [after_app, after_app, hc] at this
    rw [after_app]; exact this
  | tRun t cb _ _ ih => exact A.scope (ih _)
  | yield => exact A.yield
  | flagC _ => exact b_flagC _ h
  | flagE _ => exact b_flagE _ h
  | stateC _ => exact b_stateC _ h
  | getStateE _ => exact b_getStateE _ h
  | setStateE _ => exact b_setStateE _ h
  | getPrio _ => exact b_getPrio _ h
  | setPrioOwn _ _ => exact b_setPrioOwn _ _ h
  | enterWait _ => exact b_enterWait _ h
  | leaveWait _ _ => exact b_leaveWait _ _ h
  | finish _ _ => exact b_finish _ _ h
  | addCtx _ _ => exact b_addCtx _ _ h
  | removeCtx _ _ => exact b_removeCtx _ _ h
  | wakeUp _ => exact b_wakeUp _ h
  | workload _ => exact b_workload _ h
  | scheduleSwitch _ _ _ _ _ => exact b_scheduleSwitch _ _ _ _ _ h
  | sleepIfNeed _ _ _ => exact b_sleepIfNeed _ _ _ h
  | startRoutine _ => exact b_startRoutine _ h
  | stopSchedule _ => exact b_stopSchedule _ h
  | tGet _ => exact b_tGet _ h
  | createEnv _ => exact b_createEnv _ h
  | createCtx _ _ _ _ => exact b_createCtx _ _ _ _ h
  | removeEnv => exact b_removeEnv h
  | createFromThread _ => exact b_createFromThread _ h
  | setCleanUp _ => exact b_setCleanUp _ h
  | cleanRound _ => exact b_cleanRound _ h
  | timing => exact b_timing h
  | monitorRound _ _ _ _ => exact b_monitorRound _ _ _ _ h
  | getBest _ _ => exact b_getBest _ _ h
  | forceSchedule _ => exact b_forceSchedule _ h
  | redistribute _ _ _ => exact b_redistribute _ _ _ h
  | destroyRedundant _ => exact b_destroyRedundant _ h
  | steal _ _ _ => exact b_steal _ _ _ h
  | mLock _ _ _ _ => exact b_mLock _ _ _ _ h
  | mTry _ => exact b_mTry _ h
  | mUnlock _ _ => exact b_mUnlock _ _ h
  | cvWait _ _ _ _ _ _ => exact b_cvWait _ _ _ _ _ _ h
  | cvNotify _ _ => exact b_cvNotify _ _ h
  | waitCtx _ _ _ _ _ => exact b_waitCtx _ _ _ _ _ h
  | ctxInfo _ => exact b_ctxInfo _ h
  | envInfo _ _ _ => exact b_envInfo _ _ _ h
  | managerInfo _ _ _ _ => exact b_managerInfo _ _ _ _ h
  | tStart _ _ _ => exact b_tStart _ _ h
  | timerRound _ _ _ _ _ _ _ => exact b_timerRound _ _ _ _ _ _ h
  | cvTimeout _ _ _ _ _ => exact b_cvTimeout _ _ _ _ h
  | cvWaitUntil _ _ _ _ _ _ _ _ _ _ => exact b_cvWaitUntil _ _ _ _ _ _ _ _ _ h
  | waitCtxFor _ _ _ _ _ _ _ _ => exact b_waitCtxFor _ _ _ _ _ _ _ h
  | setPrio _ _ _ => exact b_setPrio _ _ h

/-- Without timers and without others' priorities the library obeys the order. -/
theorem lib_ord {b : Code} (hb : Lib false false b) : chk native rank gate (fun _ => 0) b := by
  have L : ∀ n, Low n (fun _ => 0) := low_zero
  have G := gated_zero
  induction hb with
  | nil => trivial
  | app a b ha hb iha ihb => rw [chk_app, lib_bal ha]; exact ⟨iha, ihb⟩
  | skip a c b ha hc iha ihc =>
    rw [chk_app, chk_app] at iha
    rw [chk_app]
    refine ⟨iha.1.1, ?_⟩
    have := iha.2
    rwa [after_app, lib_bal hc] at this
  | yield => exact ⟨fun l hl => by simp at hl, trivial⟩
  | setPrioOwn c e => exact (t_setPrioOwn c e (L _) G).1
  | leaveWait c e => exact (t_leaveWait c e (L _) G).1
  | finish c ds => exact (t_finish c ds (L _) G).1
  | addCtx e c => exact (t_addCtx e c (L _) G).1
  | scheduleSwitch e c d cs rs => exact (t_scheduleSwitch e c d cs rs (L _) G).1
  | sleepIfNeed e c rs => exact (t_sleepIfNeed e c rs (L _) G).1
  | createEnv e => exact (t_createEnv' e (L _) G).1
  | createCtx c e es e' => exact (t_createCtx c e es e' (L _) G).1
  | setCleanUp es => exact (t_setCleanUp es (L _) G).1
  | cleanRound es => exact (T.app (t_setCleanUp es (L _) G) (T.scope (can_low (L _) G) T.nil)).1
  | monitorRound es cs c e => exact (t_monitorRound es cs c e (L _) G).1
  | getBest es e => exact (t_getBest es e (L _) G).1
  | forceSchedule es => exact (t_forceSchedule es (L _) G).1
  | redistribute es cs e => exact (t_redistribute es cs e (L _) G).1
  | destroyRedundant es => exact (t_destroyRedundant es (L _) G).1
  | steal es cs c => exact (t_steal es cs c (L _) G).1
  | mLock m c n k => exact (t_mLock m c n k (L _) G).1
  | mUnlock m ds => exact (t_mUnlock m ds (L _) G).1
  | cvWait v m c n k ds => exact (t_cvWait v m c n k ds (L _) G).1
  | cvNotify v ds => exact (t_cvNotify v ds (L _) G).1
  | waitCtx c d e cs rs => exact (t_waitCtx c d e cs rs (L _) G).1
  | envInfo e i cs => exact (t_envInfo e i cs (L _) G).1
  | managerInfo es cs ts i => exact (t_managerInfo es cs ts i (L _) G).1
  | tStart _ _ hf => cases hf
  | tRun _ _ hf => cases hf
  | timerRound _ _ _ _ _ _ hf => cases hf
  | cvTimeout _ _ _ _ hf => cases hf
  | cvWaitUntil _ _ _ _ _ _ _ _ _ hf => cases hf
  | waitCtxFor _ _ _ _ _ _ _ hf => cases hf
  | setPrio _ _ hf => cases hf
  | _ =>
    have l0 := L 0
    refine And.left (b := _) (show T _ _ from ?_)
    simp only [flagC, flagE, stateC, getStateE, setStateE, getPrio, enterWait, removeCtx, wakeUp, workload, startRoutine, stopSchedule, tGet, removeEnv,
      createFromThread, timing, mTry, ctxInfo, sub]
    clear L
    ord_tac

theorem rank_le (l : Lk) : rank l ≤ 20 := by cases l <;> simp [rank]

/-- **C108**: programs that use no timers and no timed waits, in which coroutines change only their own priorities, never bring the library's locks to a
deadlock: there are no coroutines (or threads of the library) that wait in a circle for each other's locks or for a thread to run them that
one of them blocks. Whatever coroutines run on whatever threads, and for all lengths of lists. -/
theorem C108_no_deadlock_partial (thr : Nat → Nat) (s : State Lk) (h : LockOrder.Reach thr native (Lib false false) s) (D : List Nat) : ¬ Deadlock thr native s D := by
  refine no_deadlock (rank := rank) (gate := gate) 20 rank_le (fun b hb => ?_) ?_ ?_ h D
  · exact ord_of_chk _ _ _ _ _ (lib_ord hb) (fun l => congrFun (lib_bal hb _) l)
  · intro k l hk hl; cases k <;> cases l <;> simp_all [native, rank]
  · intro l g hl; cases l <;> simp_all [gate, native]

/-- Reachable and not trivial: coroutine 0 on thread 0 has a mutex's spinlock and the schedule lock of env 9 while coroutine 1 on thread 1 waits for that
schedule lock, with the lock of the list of envs. -/
example : ∃ s, LockOrder.Reach id native (Lib false false) s ∧ 0 < s.cnt 0 (.spin 3) ∧ 0 < s.cnt 1 .envs ∧ ∃ l, Waits id native s 1 0 l := by
  have h0 : Lib false false (mUnlock 3 [(5, 9)]) := .mUnlock _ _
  have h1 : Lib false false (destroyRedundant [9]) := .destroyRedundant _
  obtain ⟨s1, g1, g2, g3, g4⟩ := solo native (Lib false false) 0 ((mUnlock 3 [(5, 9)]).take 12) ((mUnlock 3 [(5, 9)]).drop 12) _
    (.step _ _ (.init id) (.call _ 0 _ rfl rfl h0)) rfl rfl (by decide) (fun _ _ => show apart (fun _ => 0) _ = true by decide)
  have e1 : s1.rest 1 = [] := by rw [g3]; rfl
  have u1 : s1.cur 1 = 1 := by rw [g2]; rfl
  have c1 : s1.cnt 1 = fun _ => 0 := by rw [g4]; rfl
  obtain ⟨s2, q1, q2, q3, q4⟩ := solo native (Lib false false) 1 ((destroyRedundant [9]).take 17) ((destroyRedundant [9]).drop 17) _
    (.step _ _ g1 (.call _ 1 _ u1 e1 h1)) u1 (by simp) (by rw [c1]; decide) (fun d hd => by
      by_cases h0 : d = 0
      · subst h0; show apart (s1.cnt 0) _ = true; rw [g4]; decide
      · have : s1.cnt d = fun _ => 0 := by rw [g4]; simp [upd, h0, State.init]
        show apart (s1.cnt d) _ = true; rw [this]; decide)
  refine ⟨s2, q1, ?_, ?_, .sched 9, ⟨(destroyRedundant [9]).drop 18, ?_⟩, ?_, .inl (by decide)⟩
  · rw [q4]; show 0 < s1.cnt 0 _; rw [g4]; decide
  · rw [q4]; simp only [upd_same, c1]; decide
  · rw [q3]; rfl
  · rw [q4]; show 0 < s1.cnt 0 _; rw [g4]; decide

/-- Two functions `a` and `b` of the library, run by coroutines 0 and 1 on two threads, can come to wait for each other for ever: `a` at its lock
operation number `i`, `b` at its number `j`. (Concerns co_env.cpp:58-768, co_manager.cpp:23-560.) -/
def Stuck (tmr out : Bool) (a b : Code) (i j : Nat) : Prop :=
  Lib tmr out a ∧ Lib tmr out b ∧ i < a.length ∧ j < b.length ∧
    ∃ s, LockOrder.Reach id native (Lib tmr out) s ∧ Deadlock id native s [0, 1] ∧ s.rest 0 = a.drop i ∧ s.rest 1 = b.drop j

/-- Two functions that get to where each waits for a lock of the other. -/
theorem stuck {tmr out : Bool} (a b : Code) (i j : Nat) (k l : Lk) (ha : Lib tmr out a) (hb : Lib tmr out b) (hi : a.drop i = .lock k :: a.drop (i + 1))
    (hj : b.drop j = .lock l :: b.drop (j + 1))
    (hc : (runnable native (fun _ => 0) (a.take i) && runnable native (fun _ => 0) (b.take j) && apart (after (fun _ => 0) (a.take i)) (b.take j) &&
      decide (0 < after (fun _ => 0) (a.take i) l) && decide (0 < after (fun _ => 0) (b.take j) k)) = true) : Stuck tmr out a b i j := by
  simp only [Bool.and_eq_true, decide_eq_true_eq] at hc
  obtain ⟨⟨⟨⟨h1, h2⟩, h3⟩, h4⟩, h5⟩ := hc
  obtain ⟨s, g1, g2, g3, g4⟩ := dead_two native (Lib tmr out) (a.take i) (b.take j) (a.drop (i + 1)) (b.drop (j + 1)) k l
    (by rw [← hi, List.take_append_drop]; exact ha) (by rw [← hj, List.take_append_drop]; exact hb) h1 h2 h3 h4 h5
  refine ⟨ha, hb, ?_, ?_, s, g1, g2, by rw [g3, hi], by rw [g4, hj]⟩
  · rcases Nat.lt_or_ge i a.length with h | h
    · exact h
    · rw [List.drop_eq_nil_of_le h] at hi; cases hi
  · rcases Nat.lt_or_ge j b.length with h | h
    · exact h
    · rw [List.drop_eq_nil_of_le h] at hj; cases hj

/-- **C108, the violations.** With timers and timed waits the library deadlocks with itself, and so it does when a coroutine's priority is changed by
another one. `wait_until` keeps the schedule lock of its env, except while it is switched away, and takes everything else after it:
1. `notify_one` of a coroutine of the env 9 against a `wait_until` on the same condition variable by a coroutine of that env: the condition
   variable's spinlock and the schedule lock.
2. `unlock` of a mutex for which a coroutine of the env 9 waits against the `lock` at the end of a `wait_until` on env 9 (co_condition_variable.h:114).
3. The time-out of a `wait_until` against its end (`timer->stop()`, co_condition_variable.h:115).
4. `wait_until` (`timer->start()`) against the timer thread, which creates a coroutine on that env.
5. `co.wait_for` against the timer thread likewise.
6. Two `wait_until`s on the envs 9 and 10, whose mutexes are waited for by coroutines of the other env.
7. `start` or `stop` of a timer against the timer thread (C70).
8. `set_priority` from outside against `redistribute_ctx__`, which moves the coroutine: the lock of the priority and that of the list. -/
theorem C108_deadlocks :
    Stuck true false (cvWaitUntil 7 8 3 2 9 0 0 [] []) (cvNotify 8 [(1, 9)]) 5 11 ∧
    Stuck true false (cvWaitUntil 7 8 3 1 9 0 0 [] []) (mUnlock 3 [(2, 9)]) 16 11 ∧
    Stuck true false (cvWaitUntil 7 8 3 1 9 0 0 [] []) (cvTimeout 7 8 1 9) 18 12 ∧
    Stuck true false (cvWaitUntil 7 8 3 1 9 0 0 [] []) (timerRound 6 [] 5 9 [] 9) 2 37 ∧
    Stuck true false (waitCtxFor 1 2 9 7 [] [] []) (timerRound 6 [] 5 9 [] 9) 35 37 ∧
    Stuck true false (cvWaitUntil 7 8 3 1 9 0 0 [] [(2, 10)]) (cvWaitUntil 6 4 5 2 10 0 0 [] [(1, 9)]) 17 17 ∧
    Stuck true false (tStart 7 []) (timerRound 7 [7] 5 9 [] 9) 1 3 ∧
    Stuck false true (setPrio 1 9) (redistribute [] [1] 9) 4 15 := by
  refine ⟨?_, ?_, ?_, ?_, ?_, ?_, ?_, ?_⟩
  · exact stuck _ _ 5 11 (.cv 8) (.sched 9) (.cvWaitUntil _ _ _ _ _ _ _ _ _ rfl) (.cvNotify _ _) rfl rfl (by decide)
  · exact stuck _ _ 16 11 (.spin 3) (.sched 9) (.cvWaitUntil _ _ _ _ _ _ _ _ _ rfl) (.mUnlock _ _) rfl rfl (by decide)
  · exact stuck _ _ 18 12 (.tmr 7) (.sched 9) (.cvWaitUntil _ _ _ _ _ _ _ _ _ rfl) (.cvTimeout _ _ _ _ rfl) rfl rfl (by decide)
  · exact stuck _ _ 2 37 .queue (.sched 9) (.cvWaitUntil _ _ _ _ _ _ _ _ _ rfl) (.timerRound _ _ _ _ _ _ rfl) rfl rfl (by decide)
  · exact stuck _ _ 35 37 .queue (.sched 9) (.waitCtxFor _ _ _ _ _ _ _ rfl) (.timerRound _ _ _ _ _ _ rfl) rfl rfl (by decide)
  · exact stuck _ _ 17 17 (.sched 10) (.sched 9) (.cvWaitUntil _ _ _ _ _ _ _ _ _ rfl) (.cvWaitUntil _ _ _ _ _ _ _ _ _ rfl) rfl rfl (by decide)
  · exact stuck _ _ 1 3 .queue (.tmr 7) (.tStart _ _ rfl) (.timerRound _ _ _ _ _ _ rfl) rfl rfl (by decide)
  · exact stuck _ _ 4 15 (.list 9) (.prio 1) (.setPrio _ _ rfl) (.redistribute _ _ _) rfl rfl (by decide)

/-- The second: what the two wait for. -/
example : ((cvWaitUntil 7 8 3 1 9 0 0 [] []).drop 15).take 2 = [.lock (.sched 9), .lock (.spin 3)] ∧
    (mUnlock 3 [(2, 9)]).head? = some (.lock (.spin 3)) ∧ (mUnlock 3 [(2, 9)])[11]? = some (.lock (.sched 9)) := by decide

/-! ## Why `ph` is free -/

/-- Where a waiter of a coroutine is: before `wait_ctx`, with `finished_lock`, subscribing with it, after subscribing with it (co_env.cpp:164-176). -/
inductive WPc
  | out | locked | sub | subbed
  deriving DecidableEq, Repr

/-- Where the coroutine is: running, with `finished_lock`, having set its state with it, without it, publishing, done (co_ctx.cpp:77-80). -/
inductive FPc
  | run | locked | set | free | pub | done
  deriving DecidableEq, Repr

/-- Any number of waiters, the coroutine. (Concerns co_env.cpp:58-768, co_manager.cpp:23-560.) -/
structure FinSt where
  w : Nat → WPc
  f : FPc

/-- Is `finished_lock` free? (co_ctx.h:55) -/
def FinSt.lockFree (s : FinSt) : Prop := (∀ i, s.w i = .out) ∧ s.f ≠ .locked ∧ s.f ≠ .set

/-- Is the state of the coroutine `finished`? (co_ctx.cpp:78) -/
def FinSt.finished (s : FinSt) : Bool := match s.f with
  | .run => false
  | .locked => false
  | _ => true

/-- One step: a waiter subscribes only if it has seen, with the lock, that the coroutine has not finished (co_env.cpp:164-183, co_ctx.cpp:77-80). -/
inductive FinStep : FinSt → FinSt → Prop
  | wLock (s i) : s.lockFree → FinStep s { s with w := upd s.w i .locked }
  | wTest (s i) : s.w i = .locked → FinStep s { s with w := upd s.w i (if s.finished then .out else .sub) }
  | wSub (s i) : s.w i = .sub → FinStep s { s with w := upd s.w i .subbed }
  | wUnlock (s i) : s.w i = .subbed → FinStep s { s with w := upd s.w i .out }
  | fLock (s) : s.f = .run → s.lockFree → FinStep s { s with f := .locked }
  | fSet (s) : s.f = .locked → FinStep s { s with f := .set }
  | fUnlock (s) : s.f = .set → FinStep s { s with f := .free }
  | fPub (s) : s.f = .free → FinStep s { s with f := .pub }
  | fDone (s) : s.f = .pub → FinStep s { s with f := .done }

/-- Reachable: at first nobody waits and the coroutine runs. (Concerns co_env.cpp:58-768, co_manager.cpp:23-560.) -/
inductive FinReach : FinSt → Prop
  | init : FinReach ⟨fun _ => .out, .run⟩
  | step (s s') : FinReach s → FinStep s s' → FinReach s'

theorem fin_inv {s : FinSt} (h : FinReach s) : (∀ i j, s.w i ≠ .out → s.w j ≠ .out → i = j) ∧
    ((s.f = .locked ∨ s.f = .set) → ∀ i, s.w i = .out) ∧ ∀ i, (s.w i = .sub ∨ s.w i = .subbed) → s.f = .run := by
  induction h with
  | init => simp
  | step s s' _ hs ih =>
    obtain ⟨h1, h2, h3⟩ := ih
    cases hs with
    | wLock i hf =>
      obtain ⟨g1, g2, g3⟩ := hf
      refine ⟨fun a b ha hb => ?_, fun hf a => ?_, fun a ha => ?_⟩
      · simp only [upd_apply] at ha hb; split at ha <;> split at hb <;> simp_all
      · simp_all
      · simp only [upd_apply] at ha; split at ha <;> simp_all
    | wTest i hi =>
      have hrun : s.finished = false → s.f = .run := fun hf => by
        cases hf' : s.f <;> simp_all [FinSt.finished]
      refine ⟨fun a b ha hb => ?_, fun hf a => ?_, fun a ha => ?_⟩
      · simp only [upd_apply] at ha hb
        refine h1 a b ?_ ?_
        · split at ha <;> simp_all
        · split at hb <;> simp_all
      · have := h2 hf i; simp_all
      · simp only [upd_apply] at ha
        by_cases hai : a = i
        · subst hai
          simp only [ite_true] at ha
          cases hf : s.finished <;> simp_all
        · simp only [if_neg hai] at ha; exact h3 a ha
    | wSub i hi =>
      refine ⟨fun a b ha hb => ?_, fun hf a => ?_, fun a ha => ?_⟩
      · simp only [upd_apply] at ha hb
        refine h1 a b ?_ ?_
        · split at ha <;> simp_all
        · split at hb <;> simp_all
      · have := h2 hf i; simp_all
      · exact h3 i (.inl hi)
    | wUnlock i hi =>
      refine ⟨fun a b ha hb => ?_, fun hf a => ?_, fun a ha => ?_⟩
      · simp only [upd_apply] at ha hb
        refine h1 a b ?_ ?_
        · split at ha <;> simp_all
        · split at hb <;> simp_all
      · have := h2 hf i; simp_all
      · exact h3 i (.inr hi)
    | fLock hf hl => exact ⟨h1, fun _ => hl.1, fun a ha => by have := hl.1 a; simp_all⟩
    | fSet hf => exact ⟨h1, fun _ => h2 (.inl hf), fun a ha => by have := h3 a ha; simp_all⟩
    | fUnlock hf => exact ⟨h1, by simp, fun a ha => by have := h3 a ha; simp_all⟩
    | fPub hf => exact ⟨h1, by simp, fun a ha => by have := h3 a ha; simp_all⟩
    | fDone hf => exact ⟨h1, by simp, fun a ha => by have := h3 a ha; simp_all⟩

/-- Nobody subscribes to `finished` while it is published, or after. -/
theorem C108_sub_pub_apart {s : FinSt} (h : FinReach s) (i : Nat) (hi : s.w i = .sub) : s.f ≠ .pub ∧ s.f ≠ .done := by
  have := (fin_inv h).2.2 i (.inl hi)
  simp [this]

/-- A waiter subscribes, and then the coroutine publishes. -/
example : (∃ s, FinReach s ∧ s.w 4 = .sub) ∧ ∃ s, FinReach s ∧ s.f = .pub := by
  have h0 := FinReach.init
  have h1 := FinReach.step _ _ h0 (.wLock _ 4 ⟨fun _ => rfl, by simp, by simp⟩)
  have h2 := FinReach.step _ _ h1 (.wTest _ 4 (by simp))
  refine ⟨⟨_, h2, by simp [FinSt.finished]⟩, ?_⟩
  have g1 := FinReach.step _ _ h0 (.fLock _ rfl ⟨fun _ => rfl, by simp, by simp⟩)
  have g2 := FinReach.step _ _ g1 (.fSet _ rfl)
  have g3 := FinReach.step _ _ g2 (.fUnlock _ rfl)
  have g4 := FinReach.step _ _ g3 (.fPub _ rfl)
  exact ⟨_, g4, rfl⟩

end Verif.LibLocks
