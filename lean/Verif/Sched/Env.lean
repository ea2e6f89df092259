import Verif.Base.Lts

/-! # One scheduling thread (`co_env`): its lists of coroutines

The machine of this file is what several threads do to the lists of one `co_env`. A step is one critical section: the code under
`mu_normal_ctx__` (with `mu_min_priority__` nested or taken together), under `wait_data__.mu` or under `priority_lock__`. What lies
between two critical sections of one operation (for example between clearing `CO_CTX_FLAG_WAITING` and lowering `min_priority__`)
is an interleaving point. The env is not being destroyed; the idle coroutine is `none`.

The parameter `pre` of `step` says whether the preemption signal may arrive inside `handle_priority_changed`. -/

namespace Verif.Sched

/-- `co_state` (co_type.h). -/
inductive CState
  | suspended
  | running
  | finished
deriving DecidableEq, Repr

/-- The part of `co_ctx` the scheduler looks at (co_ctx.h:36-63): `priority__`, the state, `wait_data__.resource`, and the flags
`WAITING`, `LOCKED`, `BIND`, `SHARED_STACK`. -/
structure Ctx where
  prio : Nat
  st : CState
  res : List Nat
  waiting : Bool
  locked : Bool
  bind : Bool
  shared : Bool
deriving DecidableEq, Repr

/-- A `set_priority` in progress (co_ctx.cpp:97-118): the old priority, whether `handle_priority_changed` has erased the coroutine
from its old list and not yet pushed it onto the new one (co_env.cpp:497-498), and whether the coroutine itself is the caller. -/
structure Chg where
  old : Nat
  erased : Bool
  self : Bool
deriving DecidableEq, Repr

/-- The rest of a wake-up or an addition in progress: before the test at co_ctx.cpp:202, before the call of `ctx->priority()` at
co_env.cpp:564 or :93, before `update_min_priority__`. -/
inductive Ph
  | test
  | read
  | upd (p : Nat)
deriving DecidableEq, Repr

/-- State of one `co_env` and its coroutines. `mem c`: `c->env()` is this env and `c` was added; `dead c`: the object was destroyed;
`mu`: the coroutine whose priority change holds `mu_normal_ctx__`. (co_env.h:58-159, co_ctx.h:36-63.) -/
structure State where
  ctx : Nat → Ctx
  mem : Nat → Bool
  dead : Nat → Bool
  lists : Nat → List Nat
  count : Nat
  min : Nat
  curr : Option Nat
  chg : Nat → Option Chg
  mu : Option Nat
  pend : List (Nat × Ph)

/-- A fresh env (co_env.cpp:32-51, co_env.h): empty lists, `min_priority__` 0. -/
def State.init : State :=
  ⟨fun _ => ⟨99, .suspended, [], false, false, false, false⟩, fun _ => false, fun _ => false, fun _ => [], 0, 0, none, fun _ => none,
    none, []⟩

/-- `CO_MAX_PRIORITY` (co_define.h). -/
def maxPriority : Nat := 100

/-- Update of a function at one point. (Concerns co_env.cpp:32-621, co_ctx.cpp:77-207.) -/
def set {α : Type} (f : Nat → α) (c : Nat) (v : α) : Nat → α := fun d => if d = c then v else f d

/-- `can_schedule` (co_ctx.cpp:141-144). -/
def Ctx.canSchedule (v : Ctx) : Bool := v.st != .finished && !v.waiting

/-- `can_move` (co_ctx.cpp:166-169). -/
def Ctx.canMove (v : Ctx) : Bool := !(v.st == .running || v.st == .finished || v.bind || v.shared)

/-- The limiting of the argument in `set_priority` (co_ctx.cpp:99-107). -/
def clamp (v : Int) : Nat := if v ≥ 100 then 99 else if v < 0 then 0 else v.toNat

/-- `enter_wait_resource_state(rc)` (co_ctx.cpp:181-190; `ctx_enter_wait_state` does nothing, co_env.cpp:567-573). -/
def Ctx.enter (v : Ctx) (rc : Nat) : Ctx := { v with res := if rc ∈ v.res then v.res else rc :: v.res, waiting := true }

/-- The critical section of `leave_wait_resource_state(rc)` (co_ctx.cpp:194-201). -/
def Ctx.leave (v : Ctx) (rc : Nat) : Ctx :=
  let r := v.res.filter (· ≠ rc)
  { v with res := r, waiting := if r = [] then false else v.waiting }

/-- `update_min_priority__` (co_env.cpp:614-621). -/
def State.updMin (s : State) (p : Nat) : State := { s with min := if p < s.min then p else s.min }

/-- The search of `choose_ctx_from_normal_list__` (co_env.cpp:531-545): lists from `min_priority__` upwards, each from the front. -/
def State.search (s : State) : Option (Nat × Nat) :=
  (List.range' s.min (maxPriority - s.min)).findSome? fun i =>
    ((s.lists i).find? fun c => (s.ctx c).canSchedule).map fun c => (i, c)

/-- `update_ctx_state__` (co_env.cpp:230-238) for the outgoing coroutine. -/
def suspend (f : Nat → Ctx) : Option Nat → Nat → Ctx
  | none => f
  | some c => set f c { f c with st := if (f c).st = .finished then .finished else .suspended }

/-- `prepare_to_switch` (co_env.cpp:241-294) with `next_ctx__` and `choose_ctx_from_normal_list__` (:216-228, :527-548): pick, rotate,
record. The state changes of `update_ctx_state__` are made only if the pick differs from the current coroutine (:267-274). -/
def State.pick (s : State) : State × Option Nat :=
  match s.search with
  | none => ({ s with curr := none, ctx := if s.curr = none then s.ctx else suspend s.ctx s.curr }, none)
  | some (i, c) =>
    let f := suspend s.ctx s.curr
    ({ s with lists := set s.lists i ((s.lists i).filter (· ≠ c) ++ [c]), min := i, curr := some c,
              ctx := if s.curr = some c then s.ctx else set f c { f c with st := .running } }, some c)

/-- What `take_all_movable_ctx` returns (co_env.cpp:575-593). -/
def State.movable (s : State) : List Nat :=
  (List.range' s.min (maxPriority - s.min)).flatMap fun i => (s.lists i).filter fun c => (s.ctx c).canMove

/-- `take_all_movable_ctx` (co_env.cpp:575-593). -/
def State.takeAll (s : State) : State :=
  { s with lists := fun i => if s.min ≤ i ∧ i < maxPriority then (s.lists i).filter fun c => !(s.ctx c).canMove else s.lists i,
           count := s.count - s.movable.length, mem := fun c => s.mem c && !decide (c ∈ s.movable) }

/-- `take_one_movable_ctx` (co_env.cpp:595-612): the first one, with its list. -/
def State.firstMovable (s : State) : Option (Nat × Nat) :=
  (List.range' s.min (maxPriority - s.min)).findSome? fun i =>
    ((s.lists i).find? fun c => (s.ctx c).canMove).map fun c => (i, c)

/-- Events. The kinds of operations in progress are shown by `begin`/`done` events: `wake` for wake-ups and additions, `prio` for
priority changes. (Concerns co_env.cpp:32-621, co_ctx.cpp:77-207.) -/
inductive Ev
  /-- added with this priority, these outstanding waits, pinned (bound or shared-stack) or not -/
  | add (c p : Nat) (res : List Nat) (pinned : Bool)
  | enter (c r : Nat)
  | leave (c r : Nat)
  | setPrio (c : Nat) (v : Int)
  | wakeBegin (c : Nat)
  | wakeDone (c : Nat)
  | prioBegin (c : Nat)
  | prioDone (c : Nat)
  | finish (c : Nat)
  /-- destroyed by `remove_ctx` -/
  | gone (c : Nat)
  | take (cs : List Nat)
  | pick (o : Option Nat)
  /-- use of a destroyed coroutine object by the waker -/
  | dangling (c : Nat)
  /-- `erase(end())` -/
  | ub (c : Nat)
deriving DecidableEq, Repr

/-- Choices: which thread does what next. (Concerns co_env.cpp:32-621, co_ctx.cpp:77-207.) -/
inductive Act
  /-- `move_ctx_to_here`, the critical section (co_env.cpp:87-91): a new or migrated coroutine -/
  | add (c : Nat) (v : Ctx)
  /-- the running coroutine registers a wait -/
  | enter (c r : Nat)
  | leave (c r : Nat)
  /-- the next part of a wake-up or addition in progress -/
  | wake (c : Nat) (ph : Ph)
  /-- `set_priority(v)` by the coroutine itself or through its handle: co_ctx.cpp:97-114 -/
  | setPrio (c : Nat) (v : Int) (self : Bool)
  /-- `handle_priority_changed` up to the `erase` (co_env.cpp:491-497) -/
  | erase (c : Nat)
  /-- its rest (co_env.cpp:498-500) -/
  | push (c : Nat)
  /-- the running coroutine's function is over (co_ctx.cpp:77-79) -/
  | finish (c : Nat)
  /-- the handle is given up (co.cpp:11-20, 52-57) -/
  | unlock (c : Nat)
  /-- `remove_detached_ctx__` removes `c` (co_env.cpp:201-214, 331-340) -/
  | remove (c : Nat)
  | pick
  | takeAll
  | takeOne
deriving DecidableEq, Repr

/-- The head of `mu_normal_ctx__`: free, or (with preemption inside) recursively owned by the env's own thread. (Concerns co_env.cpp:32-621, co_ctx.cpp:77-207.) -/
def State.muFree (pre : Bool) (s : State) : Bool := s.mu == none || pre

/-- One step. (co_env.cpp:32-51, 201-340, 491-593; co_ctx.cpp:97-207.) -/
def step (pre : Bool) (s : State) (a : Act) : Option (State × List Ev) :=
  match a with
  | .add c v =>
    if s.muFree pre = true ∧ s.mem c = false ∧ s.dead c = false ∧ s.chg c = none ∧ v.st = .suspended ∧ v.prio < maxPriority ∧
        (v.waiting = !v.res.isEmpty) then
      some ({ s with ctx := set s.ctx c v, mem := set s.mem c true, lists := set s.lists v.prio (s.lists v.prio ++ [c]),
                     count := s.count + 1, pend := (c, .read) :: s.pend },
        [.add c v.prio v.res (v.bind || v.shared), .wakeBegin c])
    else none
  | .enter c r =>
    if s.curr = some c ∧ (s.ctx c).st ≠ .finished then some ({ s with ctx := set s.ctx c ((s.ctx c).enter r) }, [.enter c r]) else none
  | .leave c r =>
    if s.mem c = true then
      some ({ s with ctx := set s.ctx c ((s.ctx c).leave r), pend := (c, .test) :: s.pend }, [.leave c r, .wakeBegin c])
    else none
  | .wake c ph =>
    if (c, ph) ∈ s.pend then
      let s1 := { s with pend := s.pend.erase (c, ph) }
      match ph with
      | .test =>
        if s.dead c = true then some (s1, [.dangling c, .wakeDone c])
        else if (s.ctx c).waiting = true then some (s1, [.wakeDone c])
        else some ({ s1 with pend := (c, .read) :: s1.pend }, [])
      | .read =>
        if s.dead c = true then some (s1, [.dangling c, .wakeDone c])
        else some ({ s1 with pend := (c, .upd (s.ctx c).prio) :: s1.pend }, [])
      | .upd p => some (s1.updMin p, [.wakeDone c])
    else none
  | .setPrio c v self =>
    if s.mem c = true ∧ s.chg c = none ∧
        ((self = true ∧ s.curr = some c ∧ (s.ctx c).st ≠ .finished) ∨ (self = false ∧ (s.ctx c).locked = true)) then
      let s1 := { s with ctx := set s.ctx c { s.ctx c with prio := clamp v } }
      if (s.ctx c).prio = clamp v then some (s1, [.setPrio c v])
      else some ({ s1 with chg := set s.chg c (some ⟨(s.ctx c).prio, false, self⟩) }, [.setPrio c v, .prioBegin c])
    else none
  | .erase c =>
    match s.chg c with
    | some g =>
      if g.erased = false ∧ s.muFree pre = true ∧ (g.self = true → s.curr = some c) then
        if c ∈ s.lists g.old then
          some ({ s with lists := set s.lists g.old ((s.lists g.old).erase c), chg := set s.chg c (some { g with erased := true }),
                         mu := some c }, [])
        else some ({ s with chg := set s.chg c none }, [.ub c])
      else none
    | none => none
  | .push c =>
    match s.chg c with
    | some g =>
      if g.erased = true ∧ (g.self = true → s.curr = some c) then
        some (({ s with lists := set s.lists (s.ctx c).prio (s.lists (s.ctx c).prio ++ [c]), chg := set s.chg c none,
                        mu := none } : State).updMin (s.ctx c).prio, [.prioDone c])
      else none
    | none => none
  | .finish c =>
    if s.curr = some c ∧ (s.ctx c).st ≠ .finished ∧ (s.chg c).all (fun g => !g.self) = true then
      some ({ s with ctx := set s.ctx c { s.ctx c with st := .finished } }, [.finish c])
    else none
  | .unlock c =>
    if (s.chg c).all (fun g => g.self) = true then some ({ s with ctx := set s.ctx c { s.ctx c with locked := false } }, []) else none
  | .remove c =>
    if s.muFree pre = true ∧ s.mem c = true ∧ (s.ctx c).st = .finished ∧ (s.ctx c).locked = false ∧ s.curr ≠ some c then
      some ({ s with lists := set s.lists (s.ctx c).prio ((s.lists (s.ctx c).prio).filter (· ≠ c)), count := s.count - 1,
                     mem := set s.mem c false, dead := set s.dead c true }, [.gone c])
    else none
  | .pick => if s.muFree pre = true then some (s.pick.1, [.pick s.pick.2]) else none
  | .takeAll => if s.muFree pre = true then some (s.takeAll, [.take s.movable]) else none
  | .takeOne =>
    if s.muFree pre = true then
      match s.firstMovable with
      | some (i, c) =>
        some ({ s with lists := set s.lists i ((s.lists i).filter (· ≠ c)), count := s.count - 1, mem := set s.mem c false },
          [.take [c]])
      | none => some (s, [.take []])
    else none

/-! ## The observer's view

What the history of events says about the coroutines of the env, without looking into the scheduler. -/

/-- The view. `waits` are the outstanding waits, `wake` and `prioOp` count the wake-ups (additions) and the priority changes that
have begun and are not done. (Concerns co_env.cpp:32-621, co_ctx.cpp:77-207.) -/
structure View where
  mem : Nat → Bool
  fin : Nat → Bool
  pinned : Nat → Bool
  waits : Nat → List Nat
  prio : Nat → Nat
  wake : Nat → Nat
  prioOp : Nat → Nat
  last : Option Nat

/-- Before any event. (Concerns co_env.cpp:32-621, co_ctx.cpp:77-207.) -/
def View.init : View :=
  ⟨fun _ => false, fun _ => false, fun _ => false, fun _ => [], fun _ => 0, fun _ => 0, fun _ => 0, none⟩

/-- What one event tells. (Concerns co_env.cpp:32-621, co_ctx.cpp:77-207.) -/
def note (w : View) : Ev → View
  | .add c p rs b => { w with mem := set w.mem c true, fin := set w.fin c false, pinned := set w.pinned c b,
                              waits := set w.waits c rs, prio := set w.prio c p }
  | .enter c r => { w with waits := set w.waits c (if r ∈ w.waits c then w.waits c else r :: w.waits c) }
  | .leave c r => { w with waits := set w.waits c ((w.waits c).filter (· ≠ r)) }
  | .setPrio c v => { w with prio := set w.prio c (max 0 (min 99 v)).toNat }
  | .wakeBegin c => { w with wake := set w.wake c (w.wake c + 1) }
  | .wakeDone c => { w with wake := set w.wake c (w.wake c - 1) }
  | .prioBegin c => { w with prioOp := set w.prioOp c (w.prioOp c + 1) }
  | .prioDone c => { w with prioOp := set w.prioOp c (w.prioOp c - 1) }
  | .finish c => { w with fin := set w.fin c true }
  | .gone c => { w with mem := set w.mem c false }
  | .take cs => { w with mem := fun c => w.mem c && !decide (c ∈ cs) }
  | .pick o => { w with last := o }
  | .dangling _ => w
  | .ub c => { w with prioOp := set w.prioOp c (w.prioOp c - 1) }

/-- The view after a history. (Concerns co_env.cpp:32-621, co_ctx.cpp:77-207.) -/
def view (es : List Ev) : View := es.foldl note View.init

/-- In the env, not finished, no outstanding wait. (Concerns co_env.cpp:32-621, co_ctx.cpp:77-207.) -/
def View.runnable (w : View) (c : Nat) : Prop := w.mem c = true ∧ w.fin c = false ∧ w.waits c = []

theorem view_append (es es' : List Ev) : view (es ++ es') = es'.foldl note (view es) := by simp [view]

end Verif.Sched
