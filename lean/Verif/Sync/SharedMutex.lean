import Verif.Sync.RwSpec

/-!
# co_shared_mutex

Models `source/cocpp/sync/co_shared_mutex.cpp` at the granularity of single accesses.
-/

namespace Verif.SharedMutex
open RwSpec

/-- The loop of libstdc++'s `std::__remove_if` (bits/stl_algobase.h, GCC 13: `for (; first != last;
++first) if (!pred(first)) { *result = std::move(*first); ++result; }`) on the array `a`, with the
positions `r` (result) and `f` (first), `n` elements left. Moving a `shared_lock_context` copies it
(trivially copyable), so the source slot keeps its value. -/
def removeLoop {α : Type} (p : α → Bool) (a : List α) (r f : Nat) : Nat → List α × Nat
  | 0 => (a, r)
  | n + 1 =>
    match a[f]? with
    | none => (a, r)
    | some x => if p x then removeLoop p a r (f + 1) n else removeLoop p (a.set r x) (r + 1) (f + 1) n

/-- libstdc++'s `std::remove_if`: the array afterwards and the returned position. The C++ standard
leaves the values after that position unspecified; this is what the implementation does. (Concerns co_shared_mutex.cpp:15-218.) -/
def removeIf {α : Type} (p : α → Bool) (a : List α) : List α × Nat :=
  let r := a.findIdx p
  if r = a.length then (a, r) else removeLoop p a r (r + 1) (a.length - r - 1)

/-- Where a coroutine is (co_shared_mutex.cpp line numbers, unique / shared version). -/
inductive Pc
  /-- in no call -/
  | out
  /-- 20 / 105: waiting for the spinlock -/
  | lkAcq (m : Mode)
  /-- 22 / 107: fast path -/
  | lkFast (m : Mode)
  /-- 30-36 / 115-121: about to look at the clock and at the lock -/
  | lkSpin (m : Mode)
  /-- 37-40 / 122-125: spinlock released, yielding -/
  | lkYield (m : Mode)
  /-- 41 / 126 -/
  | lkReacq (m : Mode)
  /-- 48 / 133 -/
  | lkCheck (m : Mode)
  /-- 59 / 144 -/
  | lkLoop (m : Mode)
  /-- 62 / 147: sleep flag set, spinlock still held -/
  | lkSleep (m : Mode)
  /-- 64 / 149: asleep or already woken, spinlock released -/
  | lkParked (m : Mode)
  /-- 66 / 151 -/
  | lkReacq2 (m : Mode)
  /-- returning, spinlock held by the scoped_lock -/
  | lkRet (m : Mode)
  /-- 74 / 159 -/
  | tlAcq (m : Mode)
  /-- 75 / 160 -/
  | tlTest (m : Mode)
  /-- 77, 81 / 162, 166: returning, spinlock held -/
  | tlRet (m : Mode) (b : Bool)
  /-- 89 / 173; `h` is the client's own record (ghost): did it hold the mutex in this mode? -/
  | ulAcq (m : Mode) (h : Bool)
  /-- 91 / 175 -/
  | ulTest (m : Mode) (h : Bool)
  /-- leaving, spinlock held; `ok = false` for the exception -/
  | ulRet (m : Mode) (ok : Bool)
  deriving DecidableEq, Repr

/-- Program points at which the coroutine holds the internal spinlock. (Concerns co_shared_mutex.cpp:15-218.) -/
def Pc.spin : Pc → Bool
  | .lkFast _ | .lkSpin _ | .lkCheck _ | .lkLoop _ | .lkSleep _ | .lkRet _ | .tlTest _ | .tlRet _ _
  | .ulTest _ _ | .ulRet _ _ => true
  | _ => false

/-- State of one shared mutex (include/cocpp/sync/co_shared_mutex.h): `spin` = `spinlock__` (with
its holder, ghost), `typ` = `lock_type__` (`none` is `unlocked`), `queue` = `wait_deque__`,
`owners` = `owners__` (a `std::set`; a list without repetitions here, its order is not used), the sleep
flags, program counters, and `hold t`: in which mode client `t` has the mutex by its own record
(ghost). -/
structure St where
  spin : Option Tid
  typ : Option Mode
  queue : List (Mode × Tid)
  owners : List Tid
  asleep : Tid → Bool
  pc : Tid → Pc
  hold : Tid → Option Mode

/-- A new mutex (co_shared_mutex.h:30-33): no holders, no waiters. -/
def St.init : St := ⟨none, none, [], [], fun _ => false, fun _ => .out, fun _ => none⟩

/-- The choices of the scheduler and the clients. (Concerns co_shared_mutex.cpp:15-218.) -/
inductive Act
  | callLock (m : Mode) (t : Tid)
  | callTry (m : Mode) (t : Tid)
  | callUnlock (m : Mode) (t : Tid)
  | run (t : Tid) (expired : Bool)
  deriving DecidableEq, Repr

/-- Set the program counter of a coroutine. (Concerns co_shared_mutex.cpp:15-218.) -/
def St.goto (s : St) (t : Tid) (p : Pc) : St := { s with pc := upd s.pc t p }

/-- Acquire the internal spinlock and go to `p`. (Concerns co_shared_mutex.cpp:15-218.) -/
def St.acquire (s : St) (t : Tid) (p : Pc) : Option (St × List Ev) :=
  if s.spin ≠ none then none else some ({ s with spin := some t, pc := upd s.pc t p }, [])

/-- May the mutex be taken at once? co_shared_mutex.cpp:22, 31, 48, 75 (unique), 107, 116, 133, 160
(shared). -/
def St.canTake (s : St) : Mode → Bool
  | .unique => s.owners.isEmpty
  | .shared => s.typ == some .shared || s.typ == none

/-- `owners__.insert(ctx)` (Concerns co_shared_mutex.cpp:15-218.) -/
def insertOwner (l : List Tid) (t : Tid) : List Tid := if t ∈ l then l else t :: l

/-- Take it: co_shared_mutex.cpp:24-25, 33-34, 50-51, 79-80, 109-110, 118-119, 135-136, 164-165. -/
def St.take (s : St) (t : Tid) (m : Mode) (p : Pc) : St :=
  { s with typ := some m, owners := insertOwner s.owners t, pc := upd s.pc t p }

/-- Is a queue entry a reader's? The predicate at co_shared_mutex.cpp:209-211. -/
def isShared (e : Mode × Tid) : Bool := e.1 == .shared

/-- `wake_up_waiters__`, co_shared_mutex.cpp:185-218. -/
def St.wake (s : St) : St :=
  match s.owners with
  | _ :: _ => s
  | [] =>
    match s.queue with
    | [] => { s with typ := none }
    | (.unique, u) :: rest =>
      { s with typ := some .unique, owners := insertOwner s.owners u, queue := rest,
               asleep := upd s.asleep u false }
    | (.shared, u) :: rest =>
      let (arr, i) := removeIf isShared ((.shared, u) :: rest)
      let woken := (arr.drop i).map Prod.snd
      { s with typ := some .shared, owners := woken.foldl insertOwner s.owners, queue := arr.take i,
               asleep := woken.foldl (fun f v => upd f v false) s.asleep }

/-- Next step of coroutine `t` inside a call. (Concerns co_shared_mutex.cpp:15-218.) -/
def runStep (s : St) (t : Tid) (expired : Bool) : Option (St × List Ev) :=
  match s.pc t with
  | .out => none
  | .lkAcq m => s.acquire t (.lkFast m)
  | .lkFast m =>
    if s.canTake m then some (s.take t m (.lkRet m), []) else some (s.goto t (.lkSpin m), [])
  | .lkSpin m =>
    if expired then some (s.goto t (.lkCheck m), [])
    else if s.canTake m then some (s.take t m (.lkRet m), [])
    else some ({ s with spin := none, pc := upd s.pc t (.lkYield m) }, [])
  | .lkYield m => some (s.goto t (.lkReacq m), [])
  | .lkReacq m => s.acquire t (.lkSpin m)
  | .lkCheck m =>
    if s.canTake m then some (s.take t m (.lkRet m), [])
    else some ({ s with queue := s.queue ++ [(m, t)], pc := upd s.pc t (.lkLoop m) }, [])
  | .lkLoop m =>
    if t ∈ s.owners then some (s.goto t (.lkRet m), [])
    else some ({ s with asleep := upd s.asleep t true, pc := upd s.pc t (.lkSleep m) }, [])
  | .lkSleep m => some ({ s with spin := none, pc := upd s.pc t (.lkParked m) }, [])
  | .lkParked m => if s.asleep t then none else some (s.goto t (.lkReacq2 m), [])
  | .lkReacq2 m => s.acquire t (.lkLoop m)
  | .lkRet m =>
    some ({ s with spin := none, pc := upd s.pc t .out, hold := upd s.hold t (some m) }, [.acq m t])
  | .tlAcq m => s.acquire t (.tlTest m)
  | .tlTest m =>
    if s.canTake m then some (s.take t m (.tlRet m true), [])
    else some (s.goto t (.tlRet m false), [])
  | .tlRet m b =>
    some ({ s with spin := none, pc := upd s.pc t .out,
                   hold := if b then upd s.hold t (some m) else s.hold },
      [if b then .acq m t else .tryFail m t])
  | .ulAcq m h => s.acquire t (.ulTest m h)
  -- co_shared_mutex.cpp:91-97 / 175-182
  | .ulTest m _ =>
    if s.typ ≠ some m ∨ t ∉ s.owners then some (s.goto t (.ulRet m false), [])
    else some (({ s with owners := s.owners.erase t }.wake).goto t (.ulRet m true), [])
  | .ulRet m ok => some ({ s with spin := none, pc := upd s.pc t .out }, [.unlockRet m t ok])

/-- One step. Clients make no acquiring call while they hold the mutex in some mode (a precondition of
`std::shared_mutex` as well); unlock calls are unrestricted. (co_shared_mutex.cpp:15-218.) -/
def step (s : St) : Act → Option (St × List Ev)
  | .callLock m t =>
    if s.pc t = .out ∧ s.hold t = none then some (s.goto t (.lkAcq m), []) else none
  | .callTry m t =>
    if s.pc t = .out ∧ s.hold t = none then some (s.goto t (.tlAcq m), []) else none
  | .callUnlock m t =>
    if s.pc t = .out then
      some ({ s with pc := upd s.pc t (.ulAcq m (decide (s.hold t = some m))),
                     hold := if s.hold t = some m then upd s.hold t none else s.hold },
        [.unlockCall m t])
    else none
  | .run t b => runStep s t b

/-- The coroutine's next step releases the mutex as last owner while a reader is first in the queue
and a writer is queued too. (Concerns co_shared_mutex.cpp:15-218.) -/
def MixedWake (s : St) : Act → Prop
  | .run t _ =>
    ∃ m h, s.pc t = .ulTest m h ∧ s.typ = some m ∧ s.owners = [t] ∧
      (∃ u rest, s.queue = (.shared, u) :: rest) ∧ ∃ w, (.unique, w) ∈ s.queue
  | _ => False

end Verif.SharedMutex
