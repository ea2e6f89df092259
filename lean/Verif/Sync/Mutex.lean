import Verif.Sync.LockSpec

/-!
# co_mutex

Models `source/cocpp/sync/co_mutex.cpp` at the granularity of single accesses: the internal
spinlock, the owner, the queue and the sleep flag of each coroutine are separate steps.
-/

namespace Verif.Mutex
open LockSpec

/-- Where a coroutine is inside `co_mutex` (co_mutex.cpp line numbers). -/
inductive Pc
  /-- in no call -/
  | out
  /-- `lock()` 22: waiting for the spinlock -/
  | lkAcq
  /-- `lock()` 26-33: spinlock held, about to look at the clock and at the owner -/
  | lkSpin
  /-- `lock()` 35-38: spinlock released, yielding -/
  | lkYield
  /-- `lock()` 39: waiting for the spinlock again -/
  | lkReacq
  /-- `lock()` 48: spin time is over, spinlock held -/
  | lkCheck
  /-- `lock()` 57: spinlock held, queued or already handed the mutex -/
  | lkLoop
  /-- `lock()` 61: sleep flag set, spinlock still held -/
  | lkSleep
  /-- `lock()` 64: asleep (or already woken), spinlock released -/
  | lkParked
  /-- `lock()` 68: woken, waiting for the spinlock -/
  | lkReacq2
  /-- `lock()` 31/44/51/70: returning, spinlock held by the scoped_lock -/
  | lkRet
  /-- `try_lock()` 76 -/
  | tlAcq
  /-- `try_lock()` 77 -/
  | tlTest
  /-- `try_lock()` 79/82: returning, spinlock held -/
  | tlRet (b : Bool)
  /-- `unlock()` 89; `h` is the client's own record (ghost): did it hold the mutex at the call? -/
  | ulAcq (h : Bool)
  /-- `unlock()` 90 -/
  | ulTest (h : Bool)
  /-- `unlock()` 93/100/108: leaving, spinlock held; `ok = false` for the exception -/
  | ulRet (ok : Bool)
  deriving DecidableEq, Repr

/-- Program points at which the coroutine holds the internal spinlock. (Concerns co_mutex.cpp:17-108.) -/
def Pc.spin : Pc → Bool
  | .lkSpin | .lkCheck | .lkLoop | .lkSleep | .lkRet | .tlTest | .tlRet _ | .ulTest _
  | .ulRet _ => true
  | _ => false

/-- State of one mutex (include/cocpp/sync/co_mutex.h: `spinlock__`, `owner__`, `wait_deque__`),
the sleep flag of each coroutine for this mutex (co_ctx.cpp:181-207, resource = this mutex), the
program counters, and `hold t`, the client's own record that it has the mutex: its last `lock()`
returned, or `try_lock()` returned true, and it has not called `unlock()` since (ghost).
`spin = none` is a clear flag; `some t` a set flag, `t` being the coroutine that set it (ghost). -/
structure St where
  spin : Option Tid
  owner : Option Tid
  queue : List Tid
  asleep : Tid → Bool
  pc : Tid → Pc
  hold : Tid → Bool

/-- A new mutex (co_mutex.h:15-17): no owner, no waiters. -/
def St.init : St := ⟨none, none, [], fun _ => false, fun _ => .out, fun _ => false⟩

/-- Actions: a client calls; or a coroutine inside a call executes its next step. `expired` is what
the clock says when the coroutine looks at it (co_utils.cpp:10). -/
inductive Act
  | callLock (t : Tid)
  | callTry (t : Tid)
  | callUnlock (t : Tid)
  | run (t : Tid) (expired : Bool)
  deriving DecidableEq, Repr

/-- Move `t` to `p`. (Concerns co_mutex.cpp:17-108.) -/
def St.goto (s : St) (t : Tid) (p : Pc) : St := { s with pc := upd s.pc t p }

/-- Acquire the internal spinlock and go to `p`; not possible while it is held (the spinning
itself is modelled in `Verif.Spinlock`). (Concerns co_mutex.cpp:17-108.) -/
def St.acquire (s : St) (t : Tid) (p : Pc) : Option (St × List Ev) :=
  if s.spin ≠ none then none else some ({ s with spin := some t, pc := upd s.pc t p }, [])

/-- Next step of coroutine `t` inside a call. (Concerns co_mutex.cpp:17-108.) -/
def runStep (s : St) (t : Tid) (expired : Bool) : Option (St × List Ev) :=
  match s.pc t with
  | .out => none
  -- co_mutex.cpp:22
  | .lkAcq => s.acquire t .lkSpin
  -- co_utils.cpp:10 (clock), co_mutex.cpp:28-35
  | .lkSpin =>
    if expired then some (s.goto t .lkCheck, [])
    else if s.owner = none then some ({ s with owner := some t, pc := upd s.pc t .lkRet }, [])
    else some ({ s with spin := none, pc := upd s.pc t .lkYield }, [])
  -- co_mutex.cpp:36-38
  | .lkYield => some (s.goto t .lkReacq, [])
  -- co_mutex.cpp:39
  | .lkReacq => s.acquire t .lkSpin
  -- co_mutex.cpp:48-55
  | .lkCheck =>
    if s.owner = none then some ({ s with owner := some t, pc := upd s.pc t .lkRet }, [])
    else some ({ s with queue := s.queue ++ [t], pc := upd s.pc t .lkLoop }, [])
  -- co_mutex.cpp:57-60
  | .lkLoop =>
    if s.owner = some t then some (s.goto t .lkRet, [])
    else some ({ s with asleep := upd s.asleep t true, pc := upd s.pc t .lkSleep }, [])
  -- co_mutex.cpp:61
  | .lkSleep => some ({ s with spin := none, pc := upd s.pc t .lkParked }, [])
  -- co_mutex.cpp:63-65: the scheduler resumes the coroutine only if its sleep flag is clear
  -- (co_ctx.cpp:141-144)
  | .lkParked => if s.asleep t then none else some (s.goto t .lkReacq2, [])
  -- co_mutex.cpp:68
  | .lkReacq2 => s.acquire t .lkLoop
  -- end of scope of the scoped_lock at 22
  | .lkRet =>
    some ({ s with spin := none, pc := upd s.pc t .out, hold := upd s.hold t true }, [.acq t])
  -- co_mutex.cpp:76
  | .tlAcq => s.acquire t .tlTest
  -- co_mutex.cpp:77-82
  | .tlTest =>
    if s.owner = none then some ({ s with owner := some t, pc := upd s.pc t (.tlRet true) }, [])
    else some (s.goto t (.tlRet false), [])
  | .tlRet b =>
    some ({ s with spin := none, pc := upd s.pc t .out,
                   hold := if b then upd s.hold t true else s.hold },
      [if b then .acq t else .tryFail t])
  -- co_mutex.cpp:89
  | .ulAcq h => s.acquire t (.ulTest h)
  -- co_mutex.cpp:90-107
  | .ulTest _ =>
    if s.owner = some t then
      match s.queue with
      | [] => some ({ s with owner := none, pc := upd s.pc t (.ulRet true) }, [])
      | u :: rest =>
        some ({ s with owner := some u, queue := rest, asleep := upd s.asleep u false,
                       pc := upd s.pc t (.ulRet true) }, [])
    else some (s.goto t (.ulRet false), [])
  -- end of scope of the scoped_lock at 89
  | .ulRet ok => some ({ s with spin := none, pc := upd s.pc t .out }, [.unlockRet t ok])

/-- One step. With `relock = false` clients never call `lock()` on a mutex they hold (the
documented precondition); with `relock = true` they may (C08). `try_lock()` while holding and
`unlock()` while not holding are always allowed. (co_mutex.cpp:17-108.) -/
def step (relock : Bool) (s : St) : Act → Option (St × List Ev)
  | .callLock t =>
    if s.pc t = .out ∧ (s.hold t = false ∨ relock = true) then some (s.goto t .lkAcq, []) else none
  | .callTry t => if s.pc t = .out then some (s.goto t .tlAcq, []) else none
  | .callUnlock t =>
    if s.pc t = .out then
      some ({ s with pc := upd s.pc t (.ulAcq (s.hold t)), hold := upd s.hold t false },
        [.unlockCall t])
    else none
  | .run t b => runStep s t b

end Verif.Mutex
