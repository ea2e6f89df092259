import Verif.Base.Lts

/-! # Timers (source/cocpp/core/co_timer.cpp, source/cocpp/core/co_manager.cpp:349-385, 493-505)

Any number of timers, any number of user threads and coroutines that start and stop them, the timer thread, the coroutines
that run the callbacks, and a clock that never goes back.

Granularity. `start` and `stop` hold the timer's mutex for their whole duration and take the queue mutex inside; the timer
thread holds the queue mutex from a wake-up to the next wait. A call of `start` or `stop` can therefore take effect only while
the timer thread waits (or has not begun or has exited), and then it is one step. What the locks do in detail, in particular
when they block each other for ever, is the subject of `Verif.Timer.Locks`. -/

namespace Verif.Timer

/-- Timers. (Concerns co_manager.cpp:181-505, co_timer.cpp:10-139.) -/
abbrev Id := Nat

/-- The constant part of a timer (co_timer.h:39-41, constructors co_timer.cpp:10-29): relative with its interval and whether
it repeats, or absolute. Times are in nanoseconds. Simplification: the clock does not overflow. -/
inductive Kind
  | rel (interval : Nat) (loop : Bool)
  | abs (t : Nat)
deriving DecidableEq, Repr

/-- `expire_type__ == co_expire_type::loop` (absolute timers fire once, co_timer.cpp:23). -/
def Kind.loops : Kind → Bool
  | .rel _ l => l
  | .abs _ => false

/-- The variable part of a timer: `expire_time__` and `status__` (co_timer.h:42-43). -/
structure Tm where
  expire : Nat
  running : Bool
deriving DecidableEq, Repr

/-- The timer thread in `timer_routine__` (co_manager.cpp:349-385). -/
inductive Pc
  /-- before co_manager.cpp:351 -/
  | init
  /-- at co_manager.cpp:353 -/
  | top
  /-- at co_manager.cpp:357, about to wait -/
  | goWait
  /-- waiting at co_manager.cpp:357, the queue mutex is released -/
  | wait
  /-- at co_manager.cpp:359 after the wait -/
  | woken
  /-- at co_manager.cpp:363 -/
  | look
  /-- at co_manager.cpp:382, about to wait until the given time -/
  | goUntil (e : Nat)
  /-- waiting at co_manager.cpp:382 -/
  | until (e : Nat)
  | exited
  /-- undefined behaviour happened -/
  | crashed
deriving DecidableEq, Repr

/-- The timer thread does not hold the queue mutex. (Concerns co_manager.cpp:181-505, co_timer.cpp:10-139.) -/
def Pc.free : Pc → Bool
  | .init | .wait | .until _ | .exited => true
  | _ => false

/-- The timer thread waits on `cv_timer_queue__`. (Concerns co_manager.cpp:181-505, co_timer.cpp:10-139.) -/
def Pc.waiting : Pc → Bool
  | .wait | .until _ => true
  | _ => false

/-- State. `q` is `timer_queue__` in its order; `pend` are the created coroutines whose callback has not begun. (co_manager.h:46, co_timer.h:39-45.) -/
structure State where
  now : Nat
  tm : Id → Tm
  q : List Id
  pc : Pc
  notified : Bool
  clean : Bool
  pend : List Id

/-- Initially nothing runs. An absolute timer has its time from the constructor (co_timer.cpp:26). -/
def State.init (cfg : Id → Kind) (t0 : Nat) : State :=
  ⟨t0, fun x => ⟨match cfg x with | .abs t => t | .rel _ _ => 0, false⟩, [], .init, false, false, []⟩

/-- Choices of the environment. (Concerns co_manager.cpp:181-505, co_timer.cpp:10-139.) -/
inductive Act
  /-- time passes -/
  | tick (d : Nat)
  | start (x : Id)
  | stop (x : Id)
  /-- the timer thread executes its next statement; if that resets a timer, the clock has advanced by `d` since the timer was
  found expired -/
  | thr (d : Nat)
  /-- the timer thread returns from its wait: notified, timed out, or spuriously -/
  | wake (spurious : Bool)
  /-- a coroutine begins to run the callback of `x` (co_timer.cpp:122-129) -/
  | cb (x : Id)
  /-- `clean_up__ = true` (co_manager.cpp:181) -/
  | clean
  /-- `cv_timer_queue__.notify_one()` (co_manager.cpp:194) -/
  | cleanNotify
deriving DecidableEq, Repr

/-- Events. (Concerns co_manager.cpp:181-505, co_timer.cpp:10-139.) -/
inductive Ev
  /-- a timer became running, to expire at `e` -/
  | start (x : Id) (e : Nat)
  /-- `start` of a running timer -/
  | startNop (x : Id)
  | stop (x : Id)
  /-- `stop` of a stopped timer -/
  | stopNop (x : Id)
  /-- the timer thread created the coroutine for the callback at time `t` -/
  | fire (x : Id) (t : Nat)
  /-- the callback begins at time `t` -/
  | cb (x : Id) (t : Nat)
  /-- `*begin()` of the empty queue -/
  | ub
  | exit
deriving DecidableEq, Repr

/-- `set::insert` with `operator<` comparing expiry times (co_timer.cpp:136-139, co_manager.h:46): an element with an
equivalent key is already there: nothing happens. -/
def insert (exp : Id → Nat) (x : Id) : List Id → List Id
  | [] => [x]
  | y :: q => if exp x < exp y then x :: y :: q else if exp y < exp x then y :: insert exp x q else y :: q

/-- `set::erase(key)`: removes the element with an equivalent key. (Concerns co_manager.cpp:181-505, co_timer.cpp:10-139.) -/
def erase (exp : Id → Nat) (x : Id) (q : List Id) : List Id := q.filter fun y => exp y ≠ exp x

/-- Set one timer. (Concerns co_manager.cpp:181-505, co_timer.cpp:10-139.) -/
def setTm (f : Id → Tm) (x : Id) (v : Tm) : Id → Tm := fun y => if y = x then v else f y

/-- The expiry times as the comparison function sees them. (Concerns co_manager.cpp:181-505, co_timer.cpp:10-139.) -/
def State.exp (s : State) : Id → Nat := fun y => (s.tm y).expire

/-- `notify_one` on the queue's condition variable. (Concerns co_manager.cpp:181-505, co_timer.cpp:10-139.) -/
def State.notify (s : State) : State := { s with notified := s.notified || s.pc.waiting }

/-- `update_timeout_time__` (co_timer.cpp:87-93). -/
def expiry (k : Kind) (now old : Nat) : Nat :=
  match k with
  | .rel i _ => now + i
  | .abs _ => old

/-- `co_timer::start` (co_timer.cpp:57-67) of a stopped timer, with insert_timer_to_queue__ (co_manager.cpp:493-498). -/
def State.doStart (cfg : Id → Kind) (s : State) (x : Id) : State :=
  let s1 := { s with tm := setTm s.tm x ⟨expiry (cfg x) s.now (s.tm x).expire, true⟩ }
  ({ s1 with q := insert s1.exp x s1.q }).notify

/-- `co_timer::stop` (co_timer.cpp:69-79) of a running timer, with remove_timer_from_queue__ (co_manager.cpp:500-505). -/
def State.doStop (s : State) (x : Id) : State :=
  let s1 := { s with tm := setTm s.tm x ⟨(s.tm x).expire, false⟩ }
  ({ s1 with q := erase s1.exp x s1.q }).notify

/-- One step. (Concerns co_manager.cpp:181-505, co_timer.cpp:10-139.) -/
def step (cfg : Id → Kind) (s : State) (a : Act) : Option (State × List Ev) :=
  if s.pc = .crashed then none else
  match a with
  | .tick d => some ({ s with now := s.now + d }, [])
  | .start x =>
    if (s.tm x).running then some (s, [.startNop x])
    else if s.pc.free then
      let s' := s.doStart cfg x
      some (s', [.start x (s'.exp x)])
    else none
  | .stop x =>
    if (s.tm x).running = false then some (s, [.stopNop x])
    else if s.pc.free then some (s.doStop x, [.stop x])
    else none
  | .thr d =>
    match s.pc with
    | .init => some ({ s with pc := .top }, [])
    | .top =>
      if s.clean then some ({ s with pc := .exited }, [.exit])
      else if s.q = [] then some ({ s with pc := .goWait }, [])
      else some ({ s with pc := .look }, [])
    | .goWait => some ({ s with pc := .wait, notified := false }, [])
    | .woken => if s.clean then some ({ s with pc := .exited }, [.exit]) else some ({ s with pc := .look }, [])
    | .look =>
      match s.q with
      | [] => some ({ s with pc := .crashed }, [.ub])
      | x :: _ =>
        if (s.tm x).expire ≤ s.now then
          -- co_manager.cpp:366-378; `stop` of a timer that is not running would do nothing
          let s1 := { s with pend := s.pend ++ [x], pc := .top }
          let s2 := if (s1.tm x).running then s1.doStop x else s1
          let e2 := if (s1.tm x).running then [Ev.stop x] else []
          if (cfg x).loops then
            let s3 := { s2 with now := s2.now + d }.doStart cfg x
            some (s3, .fire x s.now :: e2 ++ [.start x (s3.exp x)])
          else some (s2, .fire x s.now :: e2)
        else some ({ s with pc := .goUntil (s.tm x).expire }, [])
    | .goUntil e => some ({ s with pc := .until e, notified := false }, [])
    | _ => none
  | .wake sp =>
    match s.pc with
    | .wait => if sp ∨ s.notified then some ({ s with pc := .woken }, []) else none
    | .until e => if sp ∨ s.notified ∨ e ≤ s.now then some ({ s with pc := .top }, []) else none
    | _ => none
  | .cb x => if x ∈ s.pend then some ({ s with pend := s.pend.erase x }, [.cb x s.now]) else none
  | .clean => some ({ s with clean := true }, [])
  | .cleanNotify => if s.clean then some (s.notify, []) else none

/-! ## Specification -/

/-- What is armed, judged from the outside: started and not stopped since. (Concerns co_manager.cpp:181-505, co_timer.cpp:10-139.) -/
def note (f : Id → Option Nat) : Ev → Id → Option Nat
  | .start x e => fun y => if y = x then some e else f y
  | .stop x => fun y => if y = x then none else f y
  | _ => f

/-- The armed timers after a history, with their expiry times. (Concerns co_manager.cpp:181-505, co_timer.cpp:10-139.) -/
def armed (es : List Ev) : Id → Option Nat := es.foldl note (fun _ => none)

end Verif.Timer
