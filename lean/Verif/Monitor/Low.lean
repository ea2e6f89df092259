import Verif.Monitor.Abs

/-!
# Monitors, concretely

The same objects with every step of the condition variables visible. The mutex is any correct lock (`lock()` is
possible when nobody holds it; `Verif.Mutex` proves that of co_mutex). `cv_lock__` of each condition variable is a
correct spinlock (`Verif.Spinlock`).
-/

namespace Verif.Monitor

/-- Where a coroutine is. `h:n` = include/cocpp/sync/co_condition_variable.h line n, `cpp:n` =
source/cocpp/sync/co_condition_variable.cpp line n. In the `sig*` points the list are the notifications still to be
made in this critical section and `f` is how it ends. -/
inductive Pc (C K V : Type)
  | idle
  /-- waiting for the mutex: start of the call, or h:66 after a wait -/
  | acq (k : K)
  /-- has the mutex, about to execute the section at `k` -/
  | exec (k : K)
  /-- data written; the next notification waits for its `cv_lock__` (cpp:21, 32); or the section ends: unlock, or
  `wait` waits for `cv_lock__` (h:58) -/
  | sig (l : List (Sig C)) (f : Fin C K V)
  /-- cpp:22 / 33: has `cv_lock__` of the notification `g` -/
  | sGo (g : Sig C) (l : List (Sig C)) (f : Fin C K V)
  /-- cpp:39: popped `u`, about to wake it -/
  | sWake (c : C) (u : Tid) (l : List (Sig C)) (f : Fin C K V)
  /-- cpp:22-25: still to wake `ws` -/
  | sAll (c : C) (ws : List Tid) (l : List (Sig C)) (f : Fin C K V)
  /-- end of scope of `cv_lock__` -/
  | sRel (c : C) (l : List (Sig C)) (f : Fin C K V)
  /-- h:60 `waiters__.push_back(ctx)` -/
  | pPush (c : C) (k : K)
  /-- h:61 `lock.unlock()` -/
  | pUnlk (c : C) (k : K)
  /-- h:62 `enter_wait_resource_state` -/
  | pSleep (c : C) (k : K)
  /-- h:63 end of scope of `cv_lock__` -/
  | pRel (c : C) (k : K)
  /-- h:64 `CoYield()` -/
  | pYield (c : C) (k : K)
  deriving DecidableEq, Repr

section
variable {σ C K V E : Type} [DecidableEq C]

/-- Does a coroutine at this point hold the mutex? (Concerns co_condition_variable.h:69-88, co_condition_variable.cpp:18-39.) -/
def Pc.hasM : Pc C K V → Bool
  | .exec _ | .sig _ _ | .sGo _ _ _ | .sWake _ _ _ _ | .sAll _ _ _ _ | .sRel _ _ _ | .pPush _ _
  | .pUnlk _ _ => true
  | _ => false

/-- Which `cv_lock__` does a coroutine at this point hold? (Concerns co_condition_variable.h:69-88, co_condition_variable.cpp:18-39.) -/
def Pc.hasC : Pc C K V → Option C
  | .sGo g _ _ => some g.cv
  | .sWake c _ _ _ | .sAll c _ _ _ | .sRel c _ _ | .pPush c _ | .pUnlk c _ | .pSleep c _ | .pRel c _ => some c
  | _ => none

/-- `sh`: the protected data. `mtx`: holder of the mutex. `cv c`: holder of `cv_lock__` of `c` (ghost).
`wl c`: `waiters__` of `c`. `asleep t`: is the coroutine in wait state (co_ctx.cpp:181-207). -/
structure Low (σ C K V : Type) where
  sh : σ
  mtx : Option Tid
  cv : C → Option Tid
  wl : C → List Tid
  asleep : Tid → Bool
  pc : Tid → Pc C K V

/-- Initially nobody is in a call, the mutex is free and the waiting queues are empty. (Concerns co_condition_variable.h:69-88, co_condition_variable.cpp:18-39.) -/
def Low.init (s0 : σ) : Low σ C K V := ⟨s0, none, fun _ => none, fun _ => [], fun _ => false, fun _ => .idle⟩

/-- A client calls; a coroutine inside a call makes its next step. (Concerns co_condition_variable.h:69-88, co_condition_variable.cpp:18-39.) -/
inductive Act (K : Type)
  | call (t : Tid) (k : K)
  | run (t : Tid)

/-- Set the program counter of a coroutine. (Concerns co_condition_variable.h:69-88, co_condition_variable.cpp:18-39.) -/
def Low.goto (s : Low σ C K V) (t : Tid) (p : Pc C K V) : Low σ C K V := { s with pc := upd s.pc t p }

/-- Next step of coroutine `t`. (co_condition_variable.h:52-90, co_condition_variable.cpp:18-40.) -/
def Low.runStep (o : Obj σ C K V E) (s : Low σ C K V) (t : Tid) :
    Option (Low σ C K V × List (Ev K V E)) :=
  match s.pc t with
  | .idle => none
  | .acq k => if s.mtx = none then some ({ s with mtx := some t, pc := upd s.pc t (.exec k) }, []) else none
  | .exec k =>
    let r := o.body t k s.sh
    some ({ s with sh := r.sh, pc := upd s.pc t (.sig r.sigs r.fin) }, r.ev.map .lin)
  | .sig (g :: l) f =>
    if s.cv g.cv = none then
      some ({ s with cv := setC s.cv g.cv (some t), pc := upd s.pc t (.sGo g l f) }, [])
    else none
  | .sig [] (.ret v) => some ({ s with mtx := none, pc := upd s.pc t .idle }, [.ret t v])
  | .sig [] (.next k) => some ({ s with mtx := none, pc := upd s.pc t (.acq k) }, [])
  | .sig [] (.park c k) =>
    if s.cv c = none then
      some ({ s with cv := setC s.cv c (some t), pc := upd s.pc t (.pPush c k) }, [])
    else none
  | .sGo (.one c) l f =>
    match s.wl c with
    | [] => some (s.goto t (.sRel c l f), [])
    | u :: rest => some ({ s with wl := setC s.wl c rest, pc := upd s.pc t (.sWake c u l f) }, [])
  | .sGo (.all c) l f => some (s.goto t (.sAll c (s.wl c) l f), [])
  | .sWake c u l f => some ({ s with asleep := upd s.asleep u false, pc := upd s.pc t (.sRel c l f) }, [])
  | .sAll c [] l f => some ({ s with wl := setC s.wl c [], pc := upd s.pc t (.sRel c l f) }, [])
  | .sAll c (u :: ws) l f =>
    some ({ s with asleep := upd s.asleep u false, pc := upd s.pc t (.sAll c ws l f) }, [])
  | .sRel c l f => some ({ s with cv := setC s.cv c none, pc := upd s.pc t (.sig l f) }, [])
  | .pPush c k => some ({ s with wl := setC s.wl c (s.wl c ++ [t]), pc := upd s.pc t (.pUnlk c k) }, [])
  | .pUnlk c k => some ({ s with mtx := none, pc := upd s.pc t (.pSleep c k) }, [])
  | .pSleep c k => some ({ s with asleep := upd s.asleep t true, pc := upd s.pc t (.pRel c k) }, [])
  | .pRel c k => some ({ s with cv := setC s.cv c none, pc := upd s.pc t (.pYield c k) }, [])
  | .pYield _ k => if s.asleep t then none else some (s.goto t (.acq k), [])

/-- One step. (co_condition_variable.h:52-90, co_condition_variable.cpp:18-40.) -/
def Low.step (o : Obj σ C K V E) (s : Low σ C K V) : Act K → Option (Low σ C K V × List (Ev K V E))
  | .call t k =>
    match s.pc t with
    | .idle => some (s.goto t (.acq k), [.call t k])
    | _ => none
  | .run t => s.runStep o t

end

/-- Not in the library; the concrete case for the general theorems below. A gate: `true` = walk through, waiting
while the gate is shut; `false` = open the gate and notify all. (Concerns co_condition_variable.h:69-88, co_condition_variable.cpp:18-39.) -/
def gate : Obj Bool Unit Bool Unit Tid where
  body t k s :=
    if k then (if s then ⟨s, [t], [], .ret ()⟩ else ⟨s, [], [], .park () true⟩)
    else ⟨true, [], [.all ()], .ret ()⟩

/-- 1 and 2 wait at the gate, 3 opens it; 1 walks through while 3 is still waking 2. (Concerns co_condition_variable.h:69-88, co_condition_variable.cpp:18-39.) -/
def gateRun : List (Act Bool) :=
  [.call 1 true] ++ List.replicate 7 (.run 1) ++ [.call 2 true] ++ List.replicate 7 (.run 2) ++
  [.call 3 false] ++ List.replicate 5 (.run 3) ++ [.run 1] ++ List.replicate 4 (.run 3) ++ List.replicate 3 (.run 1)

/-- State of the coroutine still inside, trace. -/
example : (runs (Low.step gate) (Low.init false) gateRun).map (fun p => (p.1.pc 2, p.2)) =
    some (.pYield () true, [.call 1 true, .call 2 true, .call 3 false, .ret 3 (), .lin 1, .ret 1 ()]) := by decide

end Verif.Monitor
