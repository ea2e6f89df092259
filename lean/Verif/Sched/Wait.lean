import Verif.Base.Lts

/-! # Waiting for a coroutine: `co_env::wait_ctx`, timed and untimed, and the end of a coroutine

Any number of coroutines, each the target of any number of waits, interleaved at the granularity of critical sections. The scheduler is
the fact, proved as C45, that a coroutine with an outstanding wait does not run and (C43, C45) that one without may be picked.
`th` and `tth` say on which OS thread a coroutine and the coroutine running a timer's callback are: the mutexes involved
(`finish_lock__`, the event's and the timer's) are recursive OS mutexes. `pre` says whether the preemption signal may arrive in the
waiter between `unlock_schedule` and `unlock_finished_state` (co_env.cpp:137-138, 174-175).

Not here: the priority changes around the wait (C52), the lifetime of the objects (C53, C54), the time-out arithmetic and the queue of
timers (C65-C71). -/

namespace Verif.Wait

/-- How the function of a coroutine ended (co_ctx.cpp:67-74). -/
inductive Res
  | val (v : Nat)
  | exc (e : Nat)
deriving DecidableEq, Repr

/-- Progress of the end of a coroutine in `real_entry` (co_ctx.cpp:65-83): function not over; function over; state `finished`;
in `finished().pub()` (co_event.h:45-52) with these subscribers to go; in a timed subscriber's callback after `timer->stop()`
(co_env.cpp:127-130); event published. -/
inductive Fn
  | running
  | body
  | marked
  | pubbing (rest : List Nat)
  | leaving (w : Nat) (rest : List Nat)
  | done
deriving DecidableEq, Repr

/-- The state is `finished`. (Concerns co_env.cpp:99-187, co_ctx.cpp:65-207.) -/
def Fn.fin : Fn → Bool
  | .running => false
  | .body => false
  | _ => true

/-- The event's mutex is held by `pub`. (Concerns co_env.cpp:99-187, co_ctx.cpp:65-207.) -/
def Fn.inPub : Fn → Bool
  | .pubbing _ => true
  | .leaving _ _ => true
  | _ => false

/-- Progress of a call of `wait_ctx` (co_env.cpp:99-152, 154-187). `entered`: wait registered, `finish_lock__` of the target still held;
`held`: the same, but the preemption signal switched away; `parked`: switched away by `schedule_switch`; `awake`: switched back;
`peeked e`: `exception__` was read by `check_and_rethrow_exception` (co_ctx.cpp:131-139) and is about to be reset. -/
inductive Pc
  | entered
  | held
  | parked
  | awake
  | last
  | peeked (e : Nat)
  | over
deriving DecidableEq, Repr

/-- Progress of the timer of a timed wait: not started; in the queue; stopped before it fired; callback coroutine created
(co_manager.cpp:364-370); inside `run()` holding the timer's mutex (co_timer.cpp:125-132); after `unsub`; after
`leave_wait_resource_state`; returned (callback: co_env.cpp:131-134). -/
inductive Tm
  | off
  | armed
  | stopped
  | fired
  | running
  | unsubbed
  | left
  | over
deriving DecidableEq, Repr

/-- The callback holds the timer's mutex. (Concerns co_env.cpp:99-187, co_ctx.cpp:65-207.) -/
def Tm.holds : Tm → Bool
  | .running => true
  | .unsubbed => true
  | .left => true
  | _ => false

/-- The timer had fired. (Concerns co_env.cpp:99-187, co_ctx.cpp:65-207.) -/
def Tm.past : Tm → Bool
  | .fired => true
  | .over => true
  | t => t.holds

/-- A call of `wait_ctx`. (Concerns co_env.cpp:99-187, co_ctx.cpp:65-207.) -/
structure Op where
  who : Nat
  tgt : Nat
  timed : Bool
  pc : Pc
deriving DecidableEq, Repr

/-- What a wait registers: `enter_wait_resource_state(ctx)` (co_env.cpp:170) or `(timer_id)` (:126). -/
inductive Key
  | ctx (a : Nat)
  | timer (w : Nat)
deriving DecidableEq, Repr

/-- The key of a wait. (Concerns co_env.cpp:99-187, co_ctx.cpp:65-207.) -/
def Op.key (o : Op) (w : Nat) : Key := if o.timed then .timer w else .ctx o.tgt

/-- All coroutines and waits. `keys`: `wait_data__.resource`; `flock`: the waits that hold `finish_lock__`
(several only if their coroutines are on one OS thread); `busy`: the wait a coroutine
is in. (co_env.cpp:99-187, co_ctx.cpp:65-83.) -/
structure State where
  fn : Nat → Fn
  ret : Nat → Option Nat
  exc : Nat → Option Nat
  subs : Nat → List Nat
  flock : Nat → List Nat
  keys : Nat → List Key
  busy : Nat → Option Nat
  op : Nat → Option Op
  tm : Nat → Tm

/-- Start. (Concerns co_env.cpp:99-187, co_ctx.cpp:65-207.) -/
def State.init : State :=
  ⟨fun _ => .running, fun _ => none, fun _ => none, fun _ => [], fun _ => [], fun _ => [], fun _ => none, fun _ => none, fun _ => .off⟩

/-- OS threads, and whether the preemption window exists. (Concerns co_env.cpp:99-187, co_ctx.cpp:65-207.) -/
structure Cfg where
  th : Nat → Nat
  tth : Nat → Nat
  pre : Bool

/-- Events. (Concerns co_env.cpp:99-187, co_ctx.cpp:65-207.) -/
inductive Ev
  | call (w c a : Nat) (timed : Bool)
  | fnOver (a : Nat) (r : Res)
  | finished (a : Nat)
  | pubDone (a : Nat)
  | timeout (w : Nat)
  /-- the coroutine in wait `w` runs again after sleeping -/
  | resume (w : Nat)
  /-- wait `w` returns what the coroutine left in `ret__` -/
  | ret (w : Nat) (v : Option Nat)
  | retNone (w : Nat)
  | throw (w e : Nat)
  /-- two waits in `check_and_rethrow_exception` at the same time, one of them writing: a data race -/
  | race (a : Nat)
deriving DecidableEq, Repr

/-- Choices. (Concerns co_env.cpp:99-187, co_ctx.cpp:65-207.) -/
inductive Act
  /-- coroutine `c` calls `wait_ctx` (timed or not) on `a`: up to co_env.cpp:137 / :174 -/
  | call (w c a : Nat) (timed : Bool)
  /-- `unlock_finished_state`, `schedule_switch` (co_env.cpp:138-139, 175-176) -/
  | release (w : Nat)
  | preempt (w : Nat)
  | resume (w : Nat)
  /-- timed: the test at co_env.cpp:147-152 (numbering of the timed version) -/
  | check (w : Nat)
  | peek (w : Nat)
  | clear (w : Nat)
  /-- the function of `a` is over -/
  | body (a : Nat) (r : Res)
  | mark (a : Nat)
  | pub (a : Nat)
  | deliver (a : Nat)
  | leave (a : Nat)
  | pubEnd (a : Nat)
  | fire (w : Nat)
  | run (w : Nat)
  | unsub (w : Nat)
  | tleave (w : Nat)
  | trelease (w : Nat)
deriving DecidableEq, Repr

/-- Update of a function at one point. (Concerns co_env.cpp:99-187, co_ctx.cpp:65-207.) -/
def set {α : Type} (f : Nat → α) (c : Nat) (v : α) : Nat → α := fun d => if d = c then v else f d

/-- `finish_lock__` of `a` can be taken by code on thread `t`. (Concerns co_env.cpp:99-187, co_ctx.cpp:65-207.) -/
def State.canLock (cfg : Cfg) (s : State) (a t : Nat) : Bool :=
  (s.flock a).all fun w => match s.op w with
    | some o => cfg.th o.who == t
    | none => true

/-- `leave_wait_resource_state(k)` of coroutine `c` (co_ctx.cpp:192-207). -/
def State.leave (s : State) (c : Nat) (k : Key) : State := { s with keys := set s.keys c ((s.keys c).filter (· ≠ k)) }

/-- Set the pc of a wait. (Concerns co_env.cpp:99-187, co_ctx.cpp:65-207.) -/
def State.setPc (s : State) (w : Nat) (o : Op) (pc : Pc) : State := { s with op := set s.op w (some { o with pc := pc }) }

/-- One step. (Concerns co_env.cpp:99-187, co_ctx.cpp:65-207.) -/
def step (cfg : Cfg) (s : State) (act : Act) : Option (State × List Ev) :=
  match act with
  | .call w c a timed =>
    -- a running coroutine that is in no wait; not itself (co_env.cpp:101-104, 156-159)
    if s.op w = none ∧ s.busy c = none ∧ (s.fn c = .running) ∧ c ≠ a ∧ s.canLock cfg a (cfg.th c) = true then
      if (s.fn a).fin = true then
        some ({ s with op := set s.op w (some ⟨c, a, timed, .awake⟩), busy := set s.busy c (some w) }, [.call w c a timed])
      else
        let o : Op := ⟨c, a, timed, .entered⟩
        some ({ s with op := set s.op w (some o), busy := set s.busy c (some w), keys := set s.keys c (o.key w :: s.keys c),
                       subs := set s.subs a (s.subs a ++ [w]), flock := set s.flock a (w :: s.flock a),
                       tm := if timed then set s.tm w .armed else s.tm }, [.call w c a timed])
    else none
  | .release w =>
    match s.op w with
    | some o =>
      if o.pc = .entered then
        some ({ s.setPc w o .parked with flock := set s.flock o.tgt ((s.flock o.tgt).filter (· ≠ w)) }, [])
      else none
    | none => none
  | .preempt w =>
    match s.op w with
    | some o => if o.pc = .entered ∧ cfg.pre = true then some (s.setPc w o .held, []) else none
    | none => none
  | .resume w =>
    match s.op w with
    | some o =>
      if s.keys o.who = [] then
        if o.pc = .parked then some (s.setPc w o .awake, [.resume w])
        else if o.pc = .held then
          -- continues behind the preemption: unlock, then `schedule_switch`, which comes back at once or later
          some ({ s.setPc w o .awake with flock := set s.flock o.tgt ((s.flock o.tgt).filter (· ≠ w)) }, [.resume w])
        else none
      else none
    | none => none
  | .check w =>
    match s.op w with
    | some o =>
      if o.pc = .awake then
        if o.timed = true then
          if s.canLock cfg o.tgt (cfg.th o.who) = true then
            if (s.fn o.tgt).fin = true then some (s.setPc w o .last, [])
            else some ({ s.setPc w o .over with busy := set s.busy o.who none }, [.retNone w])
          else none
        else some (s.setPc w o .last, [])
      else none
    | none => none
  | .peek w =>
    match s.op w with
    | some o =>
      if o.pc = .last then
        match s.exc o.tgt with
        | some e => some (s.setPc w o (.peeked e), [])
        | none => some ({ s.setPc w o .over with busy := set s.busy o.who none }, [.ret w (s.ret o.tgt)])
      else none
    | none => none
  | .clear w =>
    match s.op w with
    | some o =>
      match o.pc with
      | .peeked e =>
        some ({ s.setPc w o .over with exc := set s.exc o.tgt none, busy := set s.busy o.who none },
          (if s.exc o.tgt = none then [.race o.tgt] else []) ++ [.throw w e])
      | _ => none
    | none => none
  | .body a r =>
    if s.fn a = .running ∧ s.busy a = none then
      match r with
      | .val v => some ({ s with fn := set s.fn a .body, ret := set s.ret a (some v) }, [.fnOver a r])
      | .exc e => some ({ s with fn := set s.fn a .body, exc := set s.exc a (some e) }, [.fnOver a r])
    else none
  | .mark a =>
    if s.fn a = .body ∧ s.canLock cfg a (cfg.th a) = true then some ({ s with fn := set s.fn a .marked }, [.finished a]) else none
  | .pub a => if s.fn a = .marked then some ({ s with fn := set s.fn a (.pubbing (s.subs a)) }, []) else none
  | .deliver a =>
    match s.fn a with
    | .pubbing (w :: rest) =>
      match s.op w with
      | some o =>
        if o.timed = true then
          if (s.tm w).holds = false ∨ cfg.tth w = cfg.th a then
            some ({ s with fn := set s.fn a (.leaving w rest), tm := if s.tm w = .armed then set s.tm w .stopped else s.tm }, [])
          else none
        else some ({ s.leave o.who (o.key w) with fn := set s.fn a (.pubbing rest) }, [])
      | none => none
    | _ => none
  | .leave a =>
    match s.fn a with
    | .leaving w rest =>
      match s.op w with
      | some o => some ({ s.leave o.who (o.key w) with fn := set s.fn a (.pubbing rest) }, [])
      | none => none
    | _ => none
  | .pubEnd a => if s.fn a = .pubbing [] then some ({ s with fn := set s.fn a .done }, [.pubDone a]) else none
  | .fire w => if s.tm w = .armed then some ({ s with tm := set s.tm w .fired }, [.timeout w]) else none
  | .run w => if s.tm w = .fired then some ({ s with tm := set s.tm w .running }, []) else none
  | .unsub w =>
    match s.op w with
    | some o =>
      if s.tm w = .running ∧ (s.fn o.tgt).inPub = false then
        some ({ s with tm := set s.tm w .unsubbed, subs := set s.subs o.tgt ((s.subs o.tgt).erase w) }, [])
      else none
    | none => none
  | .tleave w =>
    match s.op w with
    | some o => if s.tm w = .unsubbed then some ({ s.leave o.who (o.key w) with tm := set s.tm w .left }, []) else none
    | none => none
  | .trelease w => if s.tm w = .left then some ({ s with tm := set s.tm w .over }, []) else none

end Verif.Wait
