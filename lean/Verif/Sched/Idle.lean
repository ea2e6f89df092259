import Verif.Sched.EnvProps

/-! # The sleep of a scheduling thread (C86)

When nothing can run the thread of an env waits on `cv_sleep__`; whoever makes a coroutine schedulable calls `wake_up`. The machine of
this file runs the scheduler machine `Sched.step false` together with the thread's own control flow (`schedule_switch`,
`prepare_to_switch`, the loop of `start_schedule_routine__`, `sleep_if_need__`), the schedule lock (recursive, one thread plus others) and the
`wake_up` calls of other threads. A step is one critical section; acquiring the schedule lock, testing the condition together with
going to sleep (the lock and the condition variable make that atomic against `wake_up`) and re-acquiring it are separate steps.

Simplified: shared-stack switches are left out (the loop's `continue`, co_env.cpp:402-405, only skips a sleep); the preemption signal is
off (`CoPreemptGuard`); an env without scheduling thread has no coroutines besides its idle one. -/

namespace Verif.Sched.Idle

open Verif.Sched (Ctx Ph Act View view)

/-- What varies. `thr`: the env has a scheduling thread (`create_env(false)`), otherwise it is the env of a plain thread
(co_manager.cpp, `current_env`). `held`: coroutines may give up the thread while they hold the schedule lock, as the timed waits of
`co_condition_variable` do (co_condition_variable.h:93-117, 129-157). `spur`: `cv_sleep__.wait` may return without a notification. -/
structure Par where
  thr : Bool
  held : Bool
  spur : Bool

/-- Where the env's thread is. `o` is the coroutine `prepare_to_switch` was called from (`none`: the idle one). (Concerns co_env.cpp:241-663.) -/
inductive Pc
  /-- in a coroutine's code, or in a plain thread's code -/
  | user
  /-- in `schedule_switch` with the schedule lock, before `next_ctx__` (co_env.cpp:296-329, 241-244) -/
  | sw
  /-- co_env.cpp:257-259, before the lock of `sleep_if_need__` (:680) -/
  | slp1 (o : Option Nat)
  /-- before the test :681 -/
  | tst1 (o : Option Nat)
  /-- in `cv_sleep__.wait` :683 -/
  | zz1 (o : Option Nat)
  /-- notified, before the lock is there again :683 -/
  | nt1 (o : Option Nat)
  /-- back in the idle coroutine's loop (co_env.cpp:400), before the lock of `sleep_if_need__` (:410, :670) -/
  | back
  /-- before the test :671 -/
  | tst2
  /-- in `cv_sleep__.wait` :673 -/
  | zz2
  /-- notified, before the lock is there again :673 -/
  | nt2
  /-- at the loop's condition (co_env.cpp:395) -/
  | top
  /-- left the loop -/
  | gone
deriving DecidableEq, Repr

/-- State: the env (`b`), its thread, the schedule lock (`own`: the recursion depth of the env's thread; `ext`: held by another thread,
`some true` in `wake_up` before its notification), the calls of `wake_up` that wait for the lock, `CO_ENV` state destroying, the idle
coroutine (for a plain thread: the thread itself) and the wake-ups of it between co_ctx.cpp:201 and :202. -/
structure State where
  b : Sched.State
  pc : Pc
  own : Nat
  ext : Option Bool
  nots : Nat
  stop : Bool
  idle : Ctx
  ipend : Nat

/-- At the start: a scheduling thread at its loop (co_env.cpp:388-395), a plain thread in its code. The idle coroutine's priority plays no
role here. -/
def State.init (p : Par) : State :=
  ⟨Sched.State.init, if p.thr then .top else .user, 0, none, 0, false, ⟨99, .running, [], false, false, false, false⟩, 0⟩

/-- Events: those of the env, and `wake_up` entered / returned, the thread begins and ends `cv_sleep__.wait`, the plain thread registers a wait,
one of its waits ends, the env is told to stop. (Concerns co_env.cpp:241-663.) -/
inductive Ev
  | b (e : Sched.Ev)
  | call
  | ret
  | sleep
  | up
  | ienter (r : Nat)
  | ileave (r : Nat)
  | iwakeDone
  | stop
deriving DecidableEq, Repr

/-- Choices. (Concerns co_env.cpp:241-663.) -/
inductive A
  /-- a step on the env; `self`: by the env's own thread -/
  | base (a : Act) (self : Bool)
  /-- `lock_schedule` and `unlock_schedule` in user code -/
  | lock
  | unlock
  /-- `schedule_switch` is called from user code -/
  | yield
  /-- the thread goes on inside the scheduler -/
  | go
  | spurious
  /-- a plain thread registers a wait -/
  | ienter (r : Nat)
  | ileave (r : Nat)
  /-- its waker goes on at co_ctx.cpp:202 -/
  | itest
  /-- a `wake_up` gets the schedule lock (co_env.cpp:663) -/
  | notLock
  /-- another use of the lock by another thread (`set_state`, the monitor) -/
  | extLock
  /-- the other thread notifies (if it is in `wake_up`) and releases -/
  | extRel
  /-- `stop_schedule` (co_env.cpp:349-357): the state, then `wake_up` -/
  | stop
deriving DecidableEq, Repr

/-- Whether the step `a` on the env is possible given where the env's thread is. What a coroutine does itself needs the thread in user code;
`remove_detached_ctx__` is called from `schedule_switch`; `ctx->priority()` waits for `priority_lock__`, which `set_priority` holds to its
end (co_ctx.cpp:91-95, 97-118). -/
def State.allows (p : Par) (s : State) (a : Act) (self : Bool) : Bool :=
  (!self || s.pc == .user) &&
  match a with
  | .pick => false
  | .enter _ _ => s.pc == .user
  | .finish _ => s.pc == .user
  | .setPrio _ _ me => !me || s.pc == .user
  | .erase c => (s.b.chg c).all fun g => !g.self || s.pc == .user
  | .push c => (s.b.chg c).all fun g => !g.self || s.pc == .user
  | .wake c .read => s.b.chg c == none
  | .remove _ => s.pc == .sw
  | .add _ _ => p.thr
  | _ => true

/-- The calls of `wake_up` a step of the env ends with: `ctx_leave_wait_state` (co_env.cpp:562-566) and `move_ctx_to_here` (:93-96). A
call by the env's own thread finds nobody asleep. -/
def calls (a : Act) (self : Bool) : Nat :=
  match a with
  | .wake _ (.upd _) => if self then 0 else 1
  | _ => 0

/-- `CO_CTX_FLAG_WAITING` of the coroutine `prepare_to_switch` was called from. (Concerns co_env.cpp:241-663.) -/
def State.waits (s : State) : Option Nat → Bool
  | some c => (s.b.ctx c).waiting
  | none => s.idle.waiting

/-- `need_sleep__` (co_env.cpp:519-525; `can_schedule__` makes the same search, :502-512). -/
def State.needSleep (s : State) : Bool := s.b.search == none && !s.stop

/-- `set_priority` by the running coroutine is not in progress. (Concerns co_env.cpp:241-663.) -/
def State.selfFree (s : State) : Bool :=
  match s.b.curr with
  | some c => (s.b.chg c).all fun g => !g.self
  | none => true

/-- What a notification does to the thread. (Concerns co_env.cpp:241-663.) -/
def wakePc : Pc → Pc
  | .zz1 o => .nt1 o
  | .zz2 => .nt2
  | q => q

/-- The thread is in `cv_sleep__.wait`. (Concerns co_env.cpp:241-663.) -/
def asleepPc : Pc → Bool
  | .zz1 _ => true
  | .zz2 => true
  | _ => false

/-- The thread's own step inside the scheduler. (Concerns co_env.cpp:241-663.) -/
def go (p : Par) (s : State) : Option (State × List Ev) :=
  match s.pc with
  | .sw =>
    if s.b.mu = none then
      if s.stop = true then some ({ s with own := s.own - 1, pc := .slp1 s.b.curr }, [])
      else
        match s.b.pick.2 with
        | some c => some ({ s with b := s.b.pick.1, own := s.own - 1, pc := .user }, [.b (.pick (some c))])
        | none => some ({ s with b := s.b.pick.1, own := s.own - 1, pc := .slp1 s.b.curr }, [.b (.pick none)])
    else none
  | .slp1 o => if s.ext = none then some ({ s with own := s.own + 1, pc := .tst1 o }, []) else none
  | .tst1 o =>
    if s.b.mu = none then
      if s.needSleep = true ∧ s.waits o = true then some ({ s with own := s.own - 1, pc := .zz1 o }, [.sleep])
      else some ({ s with own := s.own - 1, pc := if p.thr then .back else .user }, [])
    else none
  | .nt1 o => if s.ext = none then some ({ s with own := s.own + 1, pc := .tst1 o }, []) else none
  | .back => if s.ext = none then some ({ s with own := s.own + 1, pc := .tst2 }, []) else none
  | .tst2 =>
    if s.b.mu = none then
      if s.needSleep = true then some ({ s with own := s.own - 1, pc := .zz2 }, [.sleep])
      else some ({ s with own := s.own - 1, pc := .top }, [])
    else none
  | .nt2 => if s.ext = none then some ({ s with own := s.own + 1, pc := .tst2 }, []) else none
  | .top =>
    if s.ext = none then
      if s.stop = true then some ({ s with pc := .gone }, []) else some ({ s with own := s.own + 1, pc := .sw }, [])
    else none
  | _ => none

/-- One step. (co_env.cpp:296-405, 519-566.) -/
def step (p : Par) (s : State) (a : A) : Option (State × List Ev) :=
  match a with
  | .base a self =>
    if s.allows p a self = true then
      (Sched.step false s.b a).map fun r =>
        ({ s with b := r.1, nots := s.nots + calls a self }, r.2.map .b ++ List.replicate (calls a self) .call)
    else none
  | .lock => if s.pc = .user ∧ s.ext = none then some ({ s with own := s.own + 1 }, []) else none
  | .unlock => if s.pc = .user ∧ 0 < s.own then some ({ s with own := s.own - 1 }, []) else none
  | .yield =>
    if s.pc = .user ∧ s.ext = none ∧ s.selfFree = true ∧ (s.own = 0 ∨ p.held = true) then
      some ({ s with own := s.own + 1, pc := .sw }, [])
    else none
  | .go => go p s
  | .spurious => if p.spur = true ∧ asleepPc s.pc = true then some ({ s with pc := wakePc s.pc }, [.up]) else none
  | .ienter r => if p.thr = false ∧ s.pc = .user then some ({ s with idle := s.idle.enter r }, [.ienter r]) else none
  | .ileave r => if p.thr = false then some ({ s with idle := s.idle.leave r, ipend := s.ipend + 1 }, [.ileave r]) else none
  | .itest =>
    if 0 < s.ipend then
      if s.idle.waiting = true then some ({ s with ipend := s.ipend - 1 }, [.iwakeDone])
      else some ({ s with ipend := s.ipend - 1, nots := s.nots + 1 }, [.iwakeDone, .call])
    else none
  | .notLock => if 0 < s.nots ∧ s.own = 0 ∧ s.ext = none then some ({ s with nots := s.nots - 1, ext := some true }, []) else none
  | .extLock => if s.own = 0 ∧ s.ext = none then some ({ s with ext := some false }, []) else none
  | .extRel =>
    match s.ext with
    | some true =>
      some ({ s with ext := none, pc := wakePc s.pc }, if asleepPc s.pc then [.up, .ret] else [.ret])
    | some false => some ({ s with ext := none }, [])
    | none => none
  | .stop =>
    if p.thr = true ∧ s.stop = false ∧ s.own = 0 ∧ s.ext = none then some ({ s with stop := true, nots := s.nots + 1 }, [.stop, .call])
    else none

/-! ## What an observer sees -/

/-- The events of the env. (Concerns co_env.cpp:241-663.) -/
def envEvs (tr : List Ev) : List Sched.Ev := tr.filterMap fun
  | .b e => some e
  | _ => none

/-- What one event says about the thread's sleep. (Concerns co_env.cpp:241-663.) -/
def noteSleep (z : Bool) : Ev → Bool
  | .sleep => true
  | .up => false
  | _ => z

/-- The thread sleeps. (Concerns co_env.cpp:241-663.) -/
def asleep (tr : List Ev) : Bool := tr.foldl noteSleep false

/-- Calls of `wake_up` that have not returned. (Concerns co_env.cpp:241-663.) -/
def inFlight (tr : List Ev) : Nat := tr.countP (· == .call) - tr.countP (· == .ret)

/-- What one event says about the plain thread's waits. (Concerns co_env.cpp:241-663.) -/
def noteWait (w : List Nat) : Ev → List Nat
  | .ienter r => if r ∈ w then w else r :: w
  | .ileave r => w.filter (· ≠ r)
  | _ => w

/-- The plain thread's outstanding waits. (Concerns co_env.cpp:241-663.) -/
def idleWaits (tr : List Ev) : List Nat := tr.foldl noteWait []

/-- The event is the end of a wait of the plain thread. (Concerns co_env.cpp:241-663.) -/
def isLeave : Ev → Bool
  | .ileave _ => true
  | _ => false

/-- The ends of waits of the plain thread whose wake-up is not done. (Concerns co_env.cpp:241-663.) -/
def idleWakes (tr : List Ev) : Nat := tr.countP isLeave - tr.countP (· == .iwakeDone)

/-- Somebody makes a coroutine of the env (or the plain thread) runnable, or tells the thread about it: a wake-up or an addition is not
yet done, or a `wake_up` has not returned. (Concerns co_env.cpp:241-663.) -/
def waking (tr : List Ev) : Prop := (∃ c, 0 < (view (envEvs tr)).wake c) ∨ 0 < idleWakes tr ∨ 0 < inFlight tr

end Verif.Sched.Idle
