import Verif.Sync.LockSpec

/-!
# co_recursive_mutex

Models `source/cocpp/sync/co_recursive_mutex.cpp` at the granularity of single accesses: the internal
spinlock, the owner, the queue and the sleep flag of each coroutine are separate steps.
-/

namespace Verif.RecMutex
open LockSpec

/-- Where a coroutine is inside `co_recursive_mutex` (co_recursive_mutex.cpp line numbers). -/
inductive Pc
  /-- in no call -/
  | out
  /-- `lock()` 18: waiting for the spinlock -/
  | lkAcq
  /-- `lock()` 20: spinlock held, about to try the fast path -/
  | lkFast
  /-- `lock()` 28-34: spinlock held, about to look at the clock and at the owner -/
  | lkSpin
  /-- `lock()` 35-38: spinlock released, yielding -/
  | lkYield
  /-- `lock()` 39: waiting for the spinlock again -/
  | lkReacq
  /-- `lock()` 46: spin time is over, spinlock held -/
  | lkCheck
  /-- `lock()` 54: spinlock held, queued or already handed the mutex -/
  | lkLoop
  /-- `lock()` 57: sleep flag set, spinlock still held -/
  | lkSleep
  /-- `lock()` 59: asleep (or already woken), spinlock released -/
  | lkParked
  /-- `lock()` 61: woken, waiting for the spinlock -/
  | lkReacq2
  /-- `lock()` 24/43/50/63: returning, spinlock held by the scoped_lock -/
  | lkRet
  /-- `try_lock()` 69 -/
  | tlAcq
  /-- `try_lock()` 70 -/
  | tlTest
  /-- `try_lock()` 72/76: returning, spinlock held -/
  | tlRet (b : Bool)
  /-- `unlock()` 83; `h` is the client's own record (ghost): did it hold the mutex at the call? -/
  | ulAcq (h : Bool)
  /-- `unlock()` 84 -/
  | ulTest (h : Bool)
  /-- `unlock()` 87/93/99/107: leaving, spinlock held; `ok = false` for the exception -/
  | ulRet (ok : Bool)
  deriving DecidableEq, Repr

/-- Program points at which the coroutine holds the internal spinlock. (Concerns co_recursive_mutex.cpp:14-107.) -/
def Pc.spin : Pc → Bool
  | .lkFast | .lkSpin | .lkCheck | .lkLoop | .lkSleep | .lkRet | .tlTest | .tlRet _ | .ulTest _
  | .ulRet _ => true
  | _ => false

/-- State of one mutex (include/cocpp/sync/co_recursive_mutex.h: `spinlock__`, `owner__`, `lock_count__`,
`wait_deque__`),
the sleep flag of each coroutine for this mutex (co_ctx.cpp:181-207, resource = this mutex), the
program counters, and `depth t`, the client's own record (ghost): how many `lock()`s that returned and
`try_lock()`s that returned true it has not yet matched by a call of `unlock()`.
`lock_count__` is a machine integer; the model does not let it wrap (2^64 nested locks).
`spin = none` is a clear flag; `some t` a set flag, `t` being the coroutine that set it (ghost). -/
structure St where
  spin : Option Tid
  owner : Option Tid
  count : Nat
  queue : List Tid
  asleep : Tid → Bool
  pc : Tid → Pc
  depth : Tid → Nat

/-- A new mutex (co_recursive_mutex.h:16-19): no owner, no waiters. -/
def St.init : St := ⟨none, none, 0, [], fun _ => false, fun _ => .out, fun _ => 0⟩

/-- Actions: a client calls; or a coroutine inside a call executes its next step. `expired` is what
the clock says when the coroutine looks at it (co_utils.cpp:10). -/
inductive Act
  | callLock (t : Tid)
  | callTry (t : Tid)
  | callUnlock (t : Tid)
  | run (t : Tid) (expired : Bool)
  deriving DecidableEq, Repr

/-- Move `t` to `p`. (Concerns co_recursive_mutex.cpp:14-107.) -/
def St.goto (s : St) (t : Tid) (p : Pc) : St := { s with pc := upd s.pc t p }

/-- Acquire the internal spinlock and go to `p`; not possible while it is held (the spinning
itself is modelled in `Verif.Spinlock`). (Concerns co_recursive_mutex.cpp:14-107.) -/
def St.acquire (s : St) (t : Tid) (p : Pc) : Option (St × List Ev) :=
  if s.spin ≠ none then none else some ({ s with spin := some t, pc := upd s.pc t p }, [])

/-- Take the free (or own) mutex: `owner__ = ctx; ++lock_count__`. (Concerns co_recursive_mutex.cpp:14-107.) -/
def St.take (s : St) (t : Tid) (p : Pc) : St :=
  { s with owner := some t, count := s.count + 1, pc := upd s.pc t p }

/-- Next step of coroutine `t` inside a call. (Concerns co_recursive_mutex.cpp:14-107.) -/
def runStep (s : St) (t : Tid) (expired : Bool) : Option (St × List Ev) :=
  match s.pc t with
  | .out => none
  -- co_recursive_mutex.cpp:18
  | .lkAcq => s.acquire t .lkFast
  -- co_recursive_mutex.cpp:20-25
  | .lkFast =>
    if s.owner = none ∨ s.owner = some t then some (s.take t .lkRet, [])
    else some (s.goto t .lkSpin, [])
  -- co_utils.cpp:10 (clock), co_recursive_mutex.cpp:28-35
  | .lkSpin =>
    if expired then some (s.goto t .lkCheck, [])
    else if s.owner = none then some (s.take t .lkRet, [])
    else some ({ s with spin := none, pc := upd s.pc t .lkYield }, [])
  -- co_recursive_mutex.cpp:36-38
  | .lkYield => some (s.goto t .lkReacq, [])
  -- co_recursive_mutex.cpp:39
  | .lkReacq => s.acquire t .lkSpin
  -- co_recursive_mutex.cpp:46-53
  | .lkCheck =>
    if s.owner = none then some (s.take t .lkRet, [])
    else some ({ s with queue := s.queue ++ [t], pc := upd s.pc t .lkLoop }, [])
  -- co_recursive_mutex.cpp:54-56
  | .lkLoop =>
    if s.owner = some t then some (s.goto t .lkRet, [])
    else some ({ s with asleep := upd s.asleep t true, pc := upd s.pc t .lkSleep }, [])
  -- co_recursive_mutex.cpp:57
  | .lkSleep => some ({ s with spin := none, pc := upd s.pc t .lkParked }, [])
  -- co_recursive_mutex.cpp:58-60: resumed only if the sleep flag is clear (co_ctx.cpp:141-144)
  | .lkParked => if s.asleep t then none else some (s.goto t .lkReacq2, [])
  -- co_recursive_mutex.cpp:61
  | .lkReacq2 => s.acquire t .lkLoop
  -- end of scope of the scoped_lock at 18
  | .lkRet =>
    some ({ s with spin := none, pc := upd s.pc t .out, depth := upd s.depth t (s.depth t + 1) },
      [.acq t])
  -- co_recursive_mutex.cpp:69
  | .tlAcq => s.acquire t .tlTest
  -- co_recursive_mutex.cpp:70-76
  | .tlTest =>
    if s.owner ≠ some t ∧ s.owner ≠ none then some (s.goto t (.tlRet false), [])
    else some (s.take t (.tlRet true), [])
  | .tlRet b =>
    some ({ s with spin := none, pc := upd s.pc t .out,
                   depth := if b then upd s.depth t (s.depth t + 1) else s.depth },
      [if b then .acq t else .tryFail t])
  -- co_recursive_mutex.cpp:83
  | .ulAcq h => s.acquire t (.ulTest h)
  -- co_recursive_mutex.cpp:84-106
  | .ulTest _ =>
    if s.owner = some t then
      if s.count - 1 ≠ 0 then
        some ({ s with count := s.count - 1, pc := upd s.pc t (.ulRet true) }, [])
      else
        match s.queue with
        | [] =>
          some ({ s with count := s.count - 1, owner := none, pc := upd s.pc t (.ulRet true) }, [])
        | u :: rest =>
          some ({ s with count := s.count - 1 + 1, owner := some u, queue := rest,
                         asleep := upd s.asleep u false, pc := upd s.pc t (.ulRet true) }, [])
    else some (s.goto t (.ulRet false), [])
  -- end of scope of the scoped_lock at 83
  | .ulRet ok => some ({ s with spin := none, pc := upd s.pc t .out }, [.unlockRet t ok])

/-- One step. Clients are unrestricted: they may lock again while holding the mutex and may call
`unlock()` while not holding it. (co_recursive_mutex.cpp:14-107.) -/
def step (s : St) : Act → Option (St × List Ev)
  | .callLock t => if s.pc t = .out then some (s.goto t .lkAcq, []) else none
  | .callTry t => if s.pc t = .out then some (s.goto t .tlAcq, []) else none
  | .callUnlock t =>
    if s.pc t = .out then
      some ({ s with pc := upd s.pc t (.ulAcq (decide (s.depth t ≠ 0))),
                     depth := upd s.depth t (s.depth t - 1) }, [.unlockCall t])
    else none
  | .run t b => runStep s t b

end Verif.RecMutex
