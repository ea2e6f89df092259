import Verif.Sync.CvSpec

/-!
# co_condition_variable

Models `include/cocpp/sync/co_condition_variable.h` and `source/cocpp/sync/co_condition_variable.cpp`
for one condition variable used with one mutex, at the granularity of single accesses. The user's mutex
is abstract here: `lock()` is possible when nobody holds it (what `Verif.Mutex` proves of co_mutex; the
order among those waiting for it is left open). Clients call `wait` only while holding the mutex.
-/

namespace Verif.Cv
open CvSpec

/-- Which version of wait: with a predicate (h:69-88, 125-157), with a time-out (h:90-157). (Concerns co_condition_variable.h:29-90, co_ctx.cpp:181-207.) -/
structure Kind where
  pred : Bool
  timed : Bool
  deriving DecidableEq, Repr

/-- Where a coroutine is (`h:n` = co_condition_variable.h line n, `cpp:n` = co_condition_variable.cpp). -/
inductive Pc
  /-- in no call of this condition variable -/
  | out
  /-- in `lock()` of the mutex, outside wait -/
  | lkAcq
  /-- h:96-103 / 131-138: about to create and start the timer -/
  | wTimer (k : Kind)
  /-- h:58, 77, 105, 143: waiting for `cv_lock__` -/
  | wCv (k : Kind)
  /-- h:60: `waiters__.push_back(ctx)` -/
  | wPush (k : Kind)
  /-- h:61: `lock.unlock()` -/
  | wUnlk (k : Kind)
  /-- h:62: `enter_wait_resource_state` -/
  | wSleep (k : Kind)
  /-- h:63: end of scope of `cv_lock__` -/
  | wRel (k : Kind)
  /-- h:64: `CoYield()` -/
  | wYield (k : Kind)
  /-- h:66: `lock.lock()` -/
  | wLock (k : Kind)
  /-- h:87, 152: the loop condition -/
  | wEval (k : Kind)
  /-- h:67, 115-116, 154-156: stop the timer, return -/
  | wRet (k : Kind)
  /-- cpp:21, 32: waiting for `cv_lock__` -/
  | nCv (all : Bool)
  /-- cpp:22 / 33: have it -/
  | nGo (all : Bool)
  /-- cpp:39: popped `u`, about to wake it -/
  | nWake (u : Tid)
  /-- cpp:22-25: still to wake -/
  | naWake (l : List Tid)
  /-- end of scope of `cv_lock__` -/
  | nRel
  deriving DecidableEq, Repr

/-- Does a coroutine at this point hold `cv_lock__`? (Concerns co_condition_variable.h:29-90, co_ctx.cpp:181-207.) -/
def Pc.cv : Pc → Bool
  | .wPush _ | .wUnlk _ | .wSleep _ | .wRel _ | .nGo _ | .nWake _ | .naWake _ | .nRel => true
  | _ => false

/-- `mtx`: holder of the user's mutex. `cv`: `cv_lock__` with its holder (ghost). `wl`: `waiters__`.
`timeout`: the member `timeout__` (h:31). `asleep`: does the coroutine wait for this condition variable
(co_ctx.cpp:181-207). `armed t`: the timer of the current timed wait of `t` is started and has not fired.
`fired t`: it has fired (ghost). -/
structure St where
  mtx : Option Tid
  cv : Option Tid
  wl : List Tid
  timeout : Bool
  asleep : Tid → Bool
  armed : Tid → Bool
  fired : Tid → Bool
  pc : Tid → Pc

/-- A new condition variable and a free mutex (co_condition_variable.h:29-31). -/
def St.init : St :=
  ⟨none, none, [], false, fun _ => false, fun _ => false, fun _ => false, fun _ => .out⟩

/-- Client calls; a step of a coroutine inside a call (`b`: what the predicate says if it is evaluated);
the timer of `t`'s wait fires. (Concerns co_condition_variable.h:29-90, co_ctx.cpp:181-207.) -/
inductive Act
  | callLock (t : Tid)
  | callUnlock (t : Tid)
  | callWait (t : Tid) (k : Kind)
  | callNotify (t : Tid) (all : Bool)
  | run (t : Tid) (b : Bool)
  | fire (t : Tid)
  deriving DecidableEq, Repr

/-- Set the program counter of a coroutine. (Concerns co_condition_variable.h:29-90, co_ctx.cpp:181-207.) -/
def St.goto (s : St) (t : Tid) (p : Pc) : St := { s with pc := upd s.pc t p }

/-- Next step of coroutine `t`. (co_condition_variable.h:52-90, co_condition_variable.cpp:18-40.) -/
def runStep (s : St) (t : Tid) (b : Bool) : Option (St × List Ev) :=
  match s.pc t with
  | .out => none
  | .lkAcq => if s.mtx = none then some ({ s with mtx := some t, pc := upd s.pc t .out }, [.lock t]) else none
  | .wTimer k =>
    some ({ s with armed := upd s.armed t true, fired := upd s.fired t false,
                   pc := upd s.pc t (.wCv k) }, [])
  | .wCv k =>
    if s.cv = none then some ({ s with cv := some t, pc := upd s.pc t (.wPush k) }, []) else none
  | .wPush k => some ({ s with wl := s.wl ++ [t], pc := upd s.pc t (.wUnlk k) }, [])
  | .wUnlk k => some ({ s with mtx := none, pc := upd s.pc t (.wSleep k) }, [.release t])
  | .wSleep k => some ({ s with asleep := upd s.asleep t true, pc := upd s.pc t (.wRel k) }, [])
  | .wRel k => some ({ s with cv := none, pc := upd s.pc t (.wYield k) }, [])
  | .wYield k => if s.asleep t then none else some (s.goto t (.wLock k), [.back t])
  | .wLock k =>
    if s.mtx = none then
      some ({ s with mtx := some t, pc := upd s.pc t (if k.pred then .wEval k else .wRet k) },
        [.relocked t])
    else none
  -- `while (!pred())` (h:87) resp. `while (!timeout__ && !pred())` (h:152)
  | .wEval k =>
    if k.timed && s.timeout then some (s.goto t (.wRet k), [])
    else if b then some (s.goto t (.wRet k), [.pred t true])
    else some (s.goto t (.wCv k), [.pred t false])
  -- nothing / `return !timeout__` (h:116) / `return !timeout__ && pred()` (h:156)
  | .wRet k =>
    let r := if k.timed then !s.timeout && (!k.pred || b) else true
    some ({ s with armed := if k.timed then upd s.armed t false else s.armed, pc := upd s.pc t .out },
      (if k.timed && k.pred && !s.timeout then [.pred t b] else []) ++ [.ret t r])
  | .nCv all =>
    if s.cv = none then some ({ s with cv := some t, pc := upd s.pc t (.nGo all) }, []) else none
  | .nGo true => some (s.goto t (.naWake s.wl), [.notifyAll])
  | .nGo false =>
    match s.wl with
    | [] => some (s.goto t .nRel, [.notifyOne])
    | u :: rest => some ({ s with wl := rest, pc := upd s.pc t (.nWake u) }, [.notifyOne])
  | .nWake u => some ({ s with asleep := upd s.asleep u false, pc := upd s.pc t .nRel }, [])
  | .naWake [] => some ({ s with wl := [], pc := upd s.pc t .nRel }, [])
  | .naWake (u :: l) =>
    some ({ s with asleep := upd s.asleep u false, pc := upd s.pc t (.naWake l) }, [])
  | .nRel => some ({ s with cv := none, pc := upd s.pc t .out }, [])

/-- One step. The timer callback (h:96-101, 131-136) is one step that is possible when nobody holds
`cv_lock__`; the timer is ideal here: it fires at most once and not after it was stopped (co_timer itself is
modelled in `Verif.Timer`). (Concerns co_condition_variable.h:29-90, co_ctx.cpp:181-207.) -/
def step (s : St) : Act → Option (St × List Ev)
  | .callLock t => if s.pc t = .out ∧ s.mtx ≠ some t then some (s.goto t .lkAcq, []) else none
  | .callUnlock t =>
    if s.pc t = .out ∧ s.mtx = some t then some ({ s with mtx := none }, [.unlock t]) else none
  | .callWait t k =>
    if s.pc t = .out ∧ s.mtx = some t then some (s.goto t (if k.timed then .wTimer k else .wCv k), [])
    else none
  | .callNotify t all => if s.pc t = .out then some (s.goto t (.nCv all), []) else none
  | .run t b => runStep s t b
  | .fire t =>
    if s.armed t = true ∧ s.cv = none then
      some ({ s with wl := s.wl.filter (fun u => u ≠ t), timeout := true, asleep := upd s.asleep t false,
                     armed := upd s.armed t false, fired := upd s.fired t true }, [.timeout t])
    else none

end Verif.Cv
