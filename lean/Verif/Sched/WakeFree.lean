import Verif.Sync.MutexInv
import Verif.Sync.CvInv
import Mathlib.Tactic.IntervalCases

/-! # Waking a coroutine that may end and be freed at once (C106)

`co_ctx::leave_wait_resource_state` (co_ctx.cpp:192-207) clears the flag that keeps the coroutine from being scheduled and then goes on using
the coroutine object. As soon as the flag is clear the thread of the coroutine may run it to its end (co_env.cpp:527-548) and, if no handle
is attached, free the object (`remove_detached_ctx__`, co_env.cpp:198-212, `destroy_ctx`, co_ctx_factory.cpp:34-45). Here: any number of
coroutines, threads and locks; every access of the waker to the object is a step of its own; an access to a freed object is the outcome
`ub`. Simplified: a coroutine has one wait at a time (several: `Verif.Sched.Env`), the scheduler may pick any coroutine that is able to run,
and an address is not used again after it was freed. -/

namespace Verif.WakeFree

/-- What a coroutine, or a thread that is not a coroutine, is doing. `wait g`: the flag WAITING is set; when the coroutine goes on it first
takes the lock `g`, if any: the internal spinlock in `lock()` (co_mutex.cpp:57-70, co_recursive_mutex.cpp, co_shared_mutex.cpp), the user's
mutex in `wait` of a condition variable (co_condition_variable.h:54-67), nothing in `sleep_until` (co_co.h:176-190) and `wait_ctx`
(co_env.cpp:154-190). `back g`: the flag is clear and it has not gone on. `on`: its own code. `ended`: co_ctx.cpp:77. `freed`: the object is gone. -/
inductive St
  | on
  | wait (g : Option Nat)
  | back (g : Option Nat)
  | ended
  | freed
  deriving DecidableEq, Repr

/-- The accesses of `leave_wait_resource_state` to the coroutine object after the flag is clear: end of scope of `wait_data__.mu`
(co_ctx.cpp:200), `test_flag` (201), `env__` (203) and `ctx->priority()` in `ctx_leave_wait_state` (co_env.cpp:558-565), `env__` (204). -/
inductive Stage
  | unlockMu
  | test
  | prio
  | env
  deriving DecidableEq, Repr

/-- A wake-up under way: whom, the next access, and whether preemption is disabled: it is in `unlock()` and in notifications
(CoPreemptGuard, co_mutex.cpp:87, co_condition_variable.cpp:19, 31) and at the end of a coroutine (co_ctx.cpp:73), but not in a callback of a
timer, which runs in a coroutine of its own (co_manager.cpp:366-370). -/
structure Wake where
  tgt : Nat
  stage : Stage
  guarded : Bool
  deriving DecidableEq, Repr

/-- `thr`: the thread that schedules a coroutine (`env__`), or a plain thread itself. `det`: no handle is attached
(CO_CTX_FLAG_LOCKED is clear, co_ctx.cpp:146-159). `lock`: holders. `wk`: who is inside `leave_wait_resource_state`. `occ`: the one who is
so with preemption disabled; nothing else happens on that thread meanwhile. -/
structure State where
  st : Nat → St
  thr : Nat → Nat
  det : Nat → Bool
  lock : Nat → Option Nat
  wk : Nat → Option Wake
  occ : Nat → Option Nat
  ub : Bool

/-- Everything runs its own code, thread assignment `thr` (co_manager.cpp:421-439). -/
def State.init (thr : Nat → Nat) : State := ⟨fun _ => .on, thr, fun _ => false, fun _ => none, fun _ => none, fun _ => none, false⟩

/-- `a` can execute an instruction outside a wake-up: it is not waiting, not finished, and its thread is not taken by a wake-up
(co_env.cpp:527-548 and the preemption guards). -/
abbrev State.free (s : State) (a : Nat) : Prop := s.st a = .on ∧ s.wk a = none ∧ s.occ (s.thr a) = none

/-- Choices. (Concerns co_ctx.cpp:64-207.) -/
inductive Act
  /-- `a` takes or releases a lock (any mutex or spinlock) -/
  | take (a l : Nat)
  | drop (a l : Nat)
  /-- `enter_wait_resource_state` (co_ctx.cpp:181-190); the lock `g` is held by the coroutine then and released at once (co_mutex.cpp:60-61,
  co_condition_variable.h:57-63) -/
  | park (a : Nat) (g : Option Nat)
  /-- `leave_wait_resource_state` up to `unset_flag` (co_ctx.cpp:194-199): `a` wakes `c`, with preemption disabled if `g` -/
  | wake (a c : Nat) (g : Bool)
  /-- the next access of the wake-up `a` is in -/
  | next (a : Nat)
  /-- a coroutine that was woken goes on, after taking the lock of its wait -/
  | resume (c : Nat)
  /-- the function of the coroutine returns (co_ctx.cpp:64-83) -/
  | finish (c : Nat)
  /-- the handle lets go (`unlock_destroy`, co_ctx.cpp:156-159) -/
  | detach (c : Nat)
  /-- `remove_detached_ctx__` on the thread of the coroutine (co_env.cpp:198-212) -/
  | destroy (c : Nat)
  /-- migration (co_manager.cpp:266-306, 441-491): not when finished (co_ctx.cpp:166-169), and only from a thread on which
  preemption is not disabled (`can_force_schedule`, co_manager.cpp:286, 479). In the present code that test always fails (C56). -/
  | move (c h : Nat)
  deriving DecidableEq, Repr

/-- The stage after an access; at `test` the wake-up ends when the flag is set again (co_ctx.cpp:201). -/
def Stage.next (waits : Bool) : Stage → Option Stage
  | .unlockMu => some .test
  | .test => if waits then none else some .prio
  | .prio => some .env
  | .env => none

/-- Is the flag WAITING set? (co_ctx.cpp:141-144) -/
def St.waits : St → Bool
  | .wait _ => true
  | _ => false

/-- One step. (co_ctx.cpp:141-207, co_condition_variable.h:54-67.) -/
def step (s : State) : Act → Option (State × List Unit)
  | .take a l => if s.free a ∧ s.lock l = none then some ({ s with lock := upd s.lock l (some a) }, []) else none
  | .drop a l => if s.free a ∧ s.lock l = some a then some ({ s with lock := upd s.lock l none }, []) else none
  | .park a none => if s.free a then some ({ s with st := upd s.st a (.wait none) }, []) else none
  | .park a (some l) =>
    if s.free a ∧ s.lock l = some a then
      some ({ s with st := upd s.st a (.wait (some l)), lock := upd s.lock l none }, [])
    else none
  | .wake a c p =>
    if s.free a then
      match s.st c with
      | .wait g =>
        some ({ s with st := upd s.st c (.back g), wk := upd s.wk a (some ⟨c, .unlockMu, p⟩),
                       occ := if p then upd s.occ (s.thr a) (some a) else s.occ }, [])
      | _ => none
    else none
  | .next a =>
    match s.wk a with
    | none => none
    | some w =>
      if s.occ (s.thr a) = none ∨ s.occ (s.thr a) = some a then
        some ({ s with ub := s.ub || decide (s.st w.tgt = .freed),
                       wk := upd s.wk a ((w.stage.next (s.st w.tgt).waits).map fun g => ⟨w.tgt, g, w.guarded⟩),
                       occ := if w.stage.next (s.st w.tgt).waits = none ∧ w.guarded = true then upd s.occ (s.thr a) none else s.occ }, [])
      else none
  | .resume c =>
    if s.occ (s.thr c) = none then
      match s.st c with
      | .back none => some ({ s with st := upd s.st c .on }, [])
      | .back (some l) =>
        if s.lock l = none then some ({ s with st := upd s.st c .on, lock := upd s.lock l (some c) }, []) else none
      | _ => none
    else none
  | .finish c => if s.free c then some ({ s with st := upd s.st c .ended }, []) else none
  | .detach c => some ({ s with det := upd s.det c true }, [])
  | .destroy c =>
    if s.st c = .ended ∧ s.det c = true ∧ s.occ (s.thr c) = none then some ({ s with st := upd s.st c .freed }, [])
    else none
  | .move c h =>
    if s.st c ≠ .ended ∧ s.st c ≠ .freed ∧ s.occ (s.thr c) = none then
      some ({ s with thr := upd s.thr c h }, [])
    else none

/-- The waker is protected when it starts to wake `c`: it holds the lock `c` takes before it goes on; or preemption is disabled and `c`
belongs to the thread of the waker. (Concerns co_ctx.cpp:64-207.) -/
def Protected (s : State) (a c : Nat) (p : Bool) : Prop :=
  (∃ l, s.st c = .wait (some l) ∧ s.lock l = some a) ∨ (p = true ∧ s.thr c = s.thr a)

/-- Every wake-up of the execution is protected at its start. (Concerns co_ctx.cpp:64-207.) -/
def Polite (s : State) (as : List Act) : Prop :=
  ∀ pre a c p post s' es, as = pre ++ .wake a c p :: post → runs step s pre = some (s', es) → Protected s' a c p

/-- The wake-up `w` of `a` is safe. (Concerns co_ctx.cpp:64-207.) -/
def Safe (s : State) (a : Nat) (w : Wake) : Prop :=
  s.st a = .on ∧ (w.guarded = true → s.occ (s.thr a) = some a) ∧
    ((∃ l, s.lock l = some a ∧ s.st w.tgt = .back (some l)) ∨
      (w.guarded = true ∧ s.thr w.tgt = s.thr a ∧ ∃ g, s.st w.tgt = .back g))

/-- Invariant of polite executions. (Concerns co_ctx.cpp:64-207.) -/
structure Inv (s : State) : Prop where
  ub : s.ub = false
  safe : ∀ a w, s.wk a = some w → Safe s a w

theorem inv_step (s s' : State) (act : Act) (es : List Unit) (hi : Inv s)
    (hp : ∀ a c p, act = .wake a c p → Protected s a c p) (hs : step s act = some (s', es)) : Inv s' := by
  obtain ⟨hu, hw⟩ := hi
  have key : ∀ a w, s.wk a = some w → s.st a = .on ∧ (w.guarded = true → s.occ (s.thr a) = some a) ∧
      ((∃ l, s.lock l = some a ∧ s.st w.tgt = .back (some l)) ∨
        (w.guarded = true ∧ s.thr w.tgt = s.thr a ∧ ∃ g, s.st w.tgt = .back g)) := hw
  cases act with
  | take a l =>
    simp only [step] at hs
    split at hs <;> cases hs
    refine ⟨hu, fun h w e => ?_⟩
    have := key h w e
    simp only [Safe]
    grind
  | drop a l =>
    simp only [step] at hs
    split at hs <;> cases hs
    refine ⟨hu, fun h w e => ?_⟩
    have := key h w e
    simp only [Safe]
    grind
  | park a g =>
    cases g with
    | none =>
      simp only [step] at hs
      split at hs <;> cases hs
      refine ⟨hu, fun h w e => ?_⟩
      have := key h w e
      simp only [Safe]
      grind
    | some l =>
      simp only [step] at hs
      split at hs <;> cases hs
      refine ⟨hu, fun h w e => ?_⟩
      have := key h w e
      simp only [Safe]
      grind
  | wake a c p =>
    simp only [step] at hs
    have hpr := hp a c p rfl
    simp only [Protected] at hpr
    split at hs
    · split at hs <;> cases hs
      refine ⟨hu, fun h w e => ?_⟩
      have := key h w
      simp only [Safe]
      grind
    · cases hs
  | next a0 =>
    simp only [step] at hs
    split at hs
    · cases hs
    · rename_i w0 hw0
      split at hs
      · rename_i hc
        cases hs
        have h0' := key a0 w0 hw0
        refine ⟨?_, fun h w e => ?_⟩
        · simp only [hu, Bool.false_or, decide_eq_false_iff_not]
          grind
        · by_cases hh : h = a0
          · subst hh
            simp only [upd_same, Option.map_eq_some_iff] at e
            obtain ⟨g, hg, rfl⟩ := e
            simp only [Safe, hg]
            simpa using h0'
          · simp only [upd_other _ _ hh] at e
            have h1 := key h w e
            simp only [Safe]
            grind
      · cases hs
  | resume c =>
    simp only [step] at hs
    split at hs
    · split at hs
      · cases hs
        refine ⟨hu, fun h w e => ?_⟩
        have := key h w e
        simp only [Safe]
        grind
      · split at hs <;> cases hs
        refine ⟨hu, fun h w e => ?_⟩
        have := key h w e
        simp only [Safe]
        grind
      · cases hs
    · cases hs
  | finish c =>
    simp only [step] at hs
    split at hs <;> cases hs
    refine ⟨hu, fun h w e => ?_⟩
    have := key h w e
    simp only [Safe]
    grind
  | detach c =>
    simp only [step] at hs
    cases hs
    exact ⟨hu, fun h w e => key h w e⟩
  | destroy c =>
    simp only [step] at hs
    split at hs <;> cases hs
    refine ⟨hu, fun h w e => ?_⟩
    have := key h w e
    simp only [Safe]
    grind
  | move c h1 =>
    simp only [step] at hs
    split at hs <;> cases hs
    refine ⟨hu, fun h w e => ?_⟩
    have := key h w e
    simp only [Safe]
    grind

/-- **C106** (holds with protection). If every waker is protected — it holds the lock the woken coroutine takes first, as in `unlock()` of
the mutexes and in notifications of a condition variable under its mutex; or preemption is disabled and the coroutine belongs to the
waker's own thread — no wake-up accesses a freed coroutine. -/
theorem C106_protected_wakes_are_safe (thr : Nat → Nat) (as : List Act) (s : State) (es : List Unit)
    (h : runs step (State.init thr) as = some (s, es)) (hp : Polite (State.init thr) as) : s.ub = false := by
  have gen : ∀ (as : List Act) (s0 s : State) (es : List Unit), Inv s0 → Polite s0 as →
      runs step s0 as = some (s, es) → Inv s := by
    intro as
    induction as with
    | nil => intro s0 s es hi _ h; cases h; exact hi
    | cons a as ih =>
      intro s0 s es hi hp h
      obtain ⟨s1, e1, e2, h1, h2, rfl⟩ := runs_cons h
      have hi1 : Inv s1 :=
        inv_step s0 s1 a e1 hi (fun x c p e => hp [] x c p as s0 [] (by rw [e]; rfl) rfl) h1
      refine ih s1 s e2 hi1 (fun pre x c p post s' es' e hr => ?_) h2
      refine hp (a :: pre) x c p post s' (e1 ++ es') (by rw [e]; rfl) ?_
      simp [runs, h1, hr]
  exact (gen as _ s es ⟨rfl, fun h w e => by cases e⟩ hp h).ub

/-- **C106** (negation, in general). A wake-up that is not protected any more can always go wrong, whatever access is next: if the woken
coroutine is detached, is not held up by a lock and its thread is not taken by the waker, there is a continuation of four steps in which the
waker accesses the freed coroutine. -/
theorem C106_unprotected_wake_goes_wrong (s : State) (a : Nat) (w : Wake) (g : Option Nat)
    (hw : s.wk a = some w) (hb : s.st w.tgt = .back g) (hg : ∀ l, g = some l → s.lock l = none) (hd : s.det w.tgt = true)
    (hf : s.wk w.tgt = none) (hx : s.occ (s.thr a) = none ∨ s.occ (s.thr a) = some a)
    (ho : s.occ (s.thr w.tgt) = none) :
    ∃ s' es, runs step s [.resume w.tgt, .finish w.tgt, .destroy w.tgt, .next a] = some (s', es) ∧ s'.ub = true := by
  have hne : a ≠ w.tgt := by rintro e; rw [← e, hw] at hf; cases hf
  cases g with
  | none => simp [runs, step, State.free, hw, hb, hd, ho, hf, hx]
  | some l => simp [runs, step, State.free, hw, hb, hd, ho, hf, hx, hg l rfl]

/-- Thread 0 schedules coroutines 0 and 2, thread 1 coroutine 1, thread 9 coroutine 9. (Concerns co_ctx.cpp:64-207.) -/
def threads : Nat → Nat := fun a => if a = 1 then 1 else if a = 9 then 9 else 0

/-- Coroutine 1 sleeps (co_co.h:176-190), the coroutine in which the timer's callback runs wakes it. -/
def sleepRun : List Act := [.detach 1, .park 1 none, .wake 9 1 false]

/-- Coroutine 1 waits in `lock()` (or in `wait` of a condition variable), coroutine 0 wakes it under the lock 5 and releases the lock
when the wake-up is over; then coroutine 1 ends and is freed. (Concerns co_ctx.cpp:64-207.) -/
def mutexRun : List Act :=
  [.detach 1, .take 1 5, .park 1 (some 5), .take 0 5, .wake 0 1 true, .next 0, .next 0, .next 0, .next 0, .drop 0 5, .resume 1, .drop 1 5,
    .finish 1, .destroy 1]

example : ((runs step (State.init threads) mutexRun).map fun p => (p.1.ub, p.1.st 1)) = some (false, .freed) := by decide

example : Polite (State.init threads) mutexRun := by
  intro pre a c p post s' es e hr
  have : pre.length = 4 ∧ pre = mutexRun.take pre.length := by
    constructor
    · have hl : pre.length < mutexRun.length := by rw [e]; simp
      have hx : mutexRun[pre.length]? = some (.wake a c p) := by rw [e]; simp
      have h14 : pre.length < 14 := hl
      generalize pre.length = n at hx h14
      interval_cases n <;> first | rfl | (simp [mutexRun] at hx)
    · rw [e]; simp
  rw [this.1] at this
  have hac : (Act.wake a c p) = .wake 0 1 true := by
    have hx : mutexRun[pre.length]? = some (.wake a c p) := by rw [e]; simp
    rw [show pre.length = 4 from by rw [this.2]; rfl] at hx
    simpa [mutexRun] using hx.symm
  cases hac
  rw [this.2] at hr
  cases hr
  exact .inl ⟨5, rfl, rfl⟩

/-- **C106** (false of the code): a detached coroutine that sleeps is woken by the callback of its timer, ends, is freed by its own thread,
and the callback then accesses it. The same schedule fits a waiter in `wait()`/`join()` that is woken by the end of the other coroutine, and
a notification of a condition variable without its mutex. -/
theorem C106_sleep_witness : ∃ as s es, runs step (State.init threads) as = some (s, es) ∧ s.ub = true := by
  have h : ∃ s es, runs step (State.init threads) sleepRun = some (s, es) ∧ s.wk 9 = some ⟨1, .unlockMu, false⟩ ∧
      s.st 1 = .back none ∧ s.det 1 = true ∧ s.wk 1 = none ∧ s.occ (s.thr 1) = none ∧ s.occ (s.thr 9) = none :=
    ⟨_, _, rfl, rfl, rfl, rfl, rfl, rfl, rfl⟩
  obtain ⟨s, es, hr, h1, h2, h3, h4, h5, h6⟩ := h
  obtain ⟨s', es', hr', hu⟩ := C106_unprotected_wake_goes_wrong s 9 ⟨1, .unlockMu, false⟩ none h1 h2 (by simp) h3 h4
    (.inl h6) h5
  exact ⟨_, s', _, runs_append hr hr', hu⟩

/-- A coroutine of the same thread is not safe when preemption is not disabled, as in the callback of a timer: the waker is preempted. -/
theorem C106_preempted_witness :
    ∃ as s es, runs step (State.init fun _ => 0) (.park 1 none :: .wake 0 1 false :: as) = some (s, es) ∧ s.ub = true :=
  ⟨[.detach 1, .resume 1, .finish 1, .destroy 1, .next 0], _, _, rfl, rfl⟩

end Verif.WakeFree

namespace Verif.Mutex

/-- `a` is at the end of its `unlock()` with the spinlock, `u` is inside `lock()` without it. (Concerns co_ctx.cpp:64-207.) -/
def Held (a u : Tid) (s : St) : Prop :=
  s.spin = some a ∧ s.pc a = .ulRet true ∧ (s.pc u = .lkParked ∨ s.pc u = .lkReacq2)

theorem held_step (a u : Tid) (s s' : St) (x : Act) (es : List LockSpec.Ev) (hi : Inv s) (h : Held a u s) (hx : ∀ b, x ≠ .run a b)
    (hs : step false s x = some (s', es)) : Held a u s' ∧ .acq u ∉ es := by
  obtain ⟨h1, h2, h3⟩ := h
  cases x with
  | callLock t =>
    simp only [step, St.goto] at hs
    split at hs <;> cases hs
    simp only [Held]
    grind
  | callTry t =>
    simp only [step, St.goto] at hs
    split at hs <;> cases hs
    simp only [Held]
    grind
  | callUnlock t =>
    simp only [step] at hs
    split at hs <;> cases hs
    simp only [Held]
    grind
  | run t b =>
    have hta : t ≠ a := fun e => hx b (by rw [e])
    have hsp : (s.pc t).spin = false := by
      by_contra hc
      have := (hi.spin t).1 (by simpa using hc)
      rw [h1] at this
      exact hta (Option.some.inj this).symm
    simp only [step, runStep] at hs
    cases hp : s.pc t <;> simp only [hp, St.acquire, St.goto] at hs <;> (try split at hs) <;> (try split at hs) <;> (try cases hs) <;>
      simp only [Held] <;> simp only [hp, Pc.spin] at hsp <;> grind

/-- **C106** for co_mutex: the protection is there. When `unlock()` of `a` has woken `u`, then as long as `a` has not released the internal
spinlock (its next step), whatever the others do, `u` is still inside its `lock()` and the spinlock is `a`'s. -/
theorem C106_mutex_wakes_under_spinlock (as bs : List Act) (s s1 s2 : St) (e0 e1 e2 : List LockSpec.Ev) (a u : Tid) (h b : Bool)
    (rest : List Tid) (hr : runs (step false) St.init as = some (s, e0)) (hpc : s.pc a = .ulTest h) (ho : s.owner = some a)
    (hq : s.queue = u :: rest) (h1 : step false s (.run a b) = some (s1, e1)) (hb : ∀ x, .run a x ∉ bs)
    (h2 : runs (step false) s1 bs = some (s2, e2)) :
    s2.spin = some a ∧ (s2.pc u = .lkParked ∨ s2.pc u = .lkReacq2) ∧ .acq u ∉ e2 := by
  have hi : Inv s := runs_inv Inv inv_step as St.init s e0 inv_init hr
  have hsp : s.spin = some a := (hi.spin a).1 (by rw [hpc]; rfl)
  have hua : u ≠ a := by
    rintro rfl
    have := hi.loc u
    simp [Loc, hpc, hq] at this
  have hu : s.pc u = .lkParked := by
    have hl := hi.loc u
    have hs := (hi.spin u).1
    rw [hsp] at hs
    cases hp : s.pc u <;> simp_all [Loc, Pc.spin] <;> grind
  have h0 : Held a u s1 := by
    simp only [step, runStep, hpc, ho, hq, if_true] at h1
    cases h1
    simp [Held, hsp, hua, hu]
  have hi1 : Inv s1 := inv_step s _ s1 e1 hi h1
  clear h1 hr
  have gen : ∀ (bs : List Act) (s1 : St) (e2 : List LockSpec.Ev), (∀ x, .run a x ∉ bs) → Inv s1 → Held a u s1 →
      runs (step false) s1 bs = some (s2, e2) → Held a u s2 ∧ .acq u ∉ e2 := by
    intro bs
    induction bs with
    | nil => intro s1 e2 _ _ h0 h2; cases h2; exact ⟨h0, by simp⟩
    | cons x bs ih =>
      intro s1 e2 hb hi1 h0 h2
      obtain ⟨s', ea, eb, ha, hb', rfl⟩ := runs_cons h2
      obtain ⟨hh, hn⟩ := held_step a u s1 s' x ea hi1 h0 (fun b e => hb b (by rw [e]; simp)) ha
      obtain ⟨hh2, hn2⟩ := ih s' eb (fun b hm => hb b (by simp [hm])) (inv_step s1 x s' ea hi1 ha) hh hb'
      exact ⟨hh2, by simp [hn, hn2]⟩
  obtain ⟨hh, hn⟩ := gen bs s1 e2 hb hi1 h0 h2
  exact ⟨hh.1, hh.2.2, hn⟩

/-- Coroutine 0 has the mutex, coroutine 1 queues and sleeps, coroutine 0 is about to hand it over; coroutine 1 is then tried twice. -/
example : ∃ s s1 s2 : St, ∃ e1 e2, s.pc 0 = .ulTest true ∧ s.owner = some 0 ∧ s.queue = [1] ∧
    (∃ as e0, runs (step false) St.init as = some (s, e0)) ∧ step false s (.run 0 false) = some (s1, e1) ∧
    runs (step false) s1 [.run 1 false, .callLock 2] = some (s2, e2) ∧ s2.pc 1 = .lkReacq2 :=
  ⟨_, _, _, _, _, rfl, rfl, rfl, ⟨[.callLock 0, .run 0 false, .run 0 false, .run 0 false, .callLock 1, .run 1 false, .run 1 true,
    .run 1 false, .run 1 false, .run 1 false, .callUnlock 0, .run 0 false], _, rfl⟩, rfl, rfl, rfl⟩

end Verif.Mutex

namespace Verif.Cv
open CvSpec

/-- Program points of `a` at which it is in no call or in a notification. (Concerns co_ctx.cpp:64-207.) -/
def Pc.notifies : Pc → Bool
  | .out | .nCv _ | .nGo _ | .nWake _ | .naWake _ | .nRel => true
  | _ => false

/-- `a` has the mutex and is in no wait; `u` is inside a wait and has not got the mutex back. (Concerns co_ctx.cpp:64-207.) -/
def Held (a u : Tid) (s : St) : Prop :=
  s.mtx = some a ∧ (s.pc a).notifies = true ∧ ((∃ k, s.pc u = .wYield k) ∨ ∃ k, s.pc u = .wLock k)

theorem held_step (a u : Tid) (s s' : St) (x : Act) (es : List Ev) (h : Held a u s) (hx : x ≠ .callUnlock a)
    (hw : ∀ k, x ≠ .callWait a k) (hi : Inv s) (hs : step s x = some (s', es)) :
    Held a u s' ∧ .relocked u ∉ es ∧ ∀ b, .ret u b ∉ es := by
  obtain ⟨h1, h2, h3⟩ := h
  have hua : u ≠ a := by
    rintro rfl
    rcases h3 with ⟨k, h3⟩ | ⟨k, h3⟩ <;> rw [h3] at h2 <;> cases h2
  cases x with
  | callLock t =>
    simp only [step, St.goto] at hs
    split at hs <;> cases hs
    simp only [Held]
    grind
  | callUnlock t =>
    simp only [step] at hs
    split at hs <;> cases hs
    simp only [Held]
    grind
  | callWait t k =>
    simp only [step, St.goto] at hs
    split at hs <;> cases hs
    simp only [Held]
    grind
  | callNotify t all =>
    simp only [step, St.goto] at hs
    split at hs <;> cases hs
    simp only [Held]
    grind [Pc.notifies]
  | fire t =>
    simp only [step] at hs
    split at hs <;> cases hs
    simp only [Held]
    grind
  | run t b =>
    have hl := hi.loc t
    simp only [step, runStep] at hs
    cases hp : s.pc t <;> simp only [hp, St.goto] at hs <;> (try split at hs) <;> (try split at hs) <;> (try cases hs) <;>
      simp only [Held] <;> simp only [Loc, hp] at hl <;> grind [Pc.notifies]

/-- **C106** for condition variables notified under the mutex: the protection is there. When `a`, holding the mutex, has woken `u`, then as
long as `a` neither unlocks the mutex nor waits itself, whatever the others do, `u` is still inside its wait. All notifications of the
library's own objects are of this kind. -/
theorem C106_notify_under_mutex (as bs : List Act) (s s1 s2 : St) (e0 e1 e2 : List Ev) (a u : Tid) (b : Bool)
    (hr : runs step St.init as = some (s, e0)) (hm : s.mtx = some a) (hpc : s.pc a = .nWake u ∨ ∃ l, s.pc a = .naWake (u :: l))
    (h1 : step s (.run a b) = some (s1, e1)) (hb : .callUnlock a ∉ bs) (hw : ∀ k, .callWait a k ∉ bs)
    (h2 : runs step s1 bs = some (s2, e2)) :
    ((∃ k, s2.pc u = .wYield k) ∨ ∃ k, s2.pc u = .wLock k) ∧ .relocked u ∉ e2 ∧ ∀ b, .ret u b ∉ e2 := by
  have hi : Inv s := runs_inv Inv inv_step as St.init s e0 inv_init hr
  have hcv : s.cv = some a := (hi.cv a).1 (by rcases hpc with h | ⟨l, h⟩ <;> rw [h] <;> rfl)
  have hin : u ∈ s.wlE ∨ s.waking = some u := by
    rcases hpc with h | ⟨l, h⟩
    · right; simp [waking_of_cv hcv, h]
    · left; simp [wlE_of_cv hcv, h]
  have hu : ∃ k, s.pc u = .wYield k := by
    have hl := hi.loc u
    have hs := (hi.cv u).1
    rw [hcv] at hs
    cases hp : s.pc u <;> simp only [Loc, hp] at hl <;> simp only [hp, Pc.cv] at hs <;> grind
  have h0 : Held a u s1 := by
    obtain ⟨k, hk⟩ := hu
    have hua : u ≠ a := by rintro rfl; rcases hpc with h | ⟨l, h⟩ <;> rw [h] at hk <;> cases hk
    rcases hpc with h | ⟨l, h⟩ <;> simp only [step, runStep, h] at h1 <;> cases h1 <;>
      simp [Held, hm, hua, hk, Pc.notifies]
  have hi1 : Inv s1 := inv_step s _ s1 e1 hi h1
  clear h1 hr
  have gen : ∀ (bs : List Act) (s1 : St) (e2 : List Ev), .callUnlock a ∉ bs → (∀ k, .callWait a k ∉ bs) → Inv s1 → Held a u s1 →
      runs step s1 bs = some (s2, e2) → Held a u s2 ∧ .relocked u ∉ e2 ∧ ∀ b, .ret u b ∉ e2 := by
    intro bs
    induction bs with
    | nil => intro s1 e2 _ _ _ h0 h2; cases h2; exact ⟨h0, by simp, by simp⟩
    | cons x bs ih =>
      intro s1 e2 hb hw hi1 h0 h2
      obtain ⟨s', ea, eb, ha, hb', rfl⟩ := runs_cons h2
      obtain ⟨hh, hn, hn'⟩ := held_step a u s1 s' x ea h0 (fun e => hb (by rw [e]; simp)) (fun k e => hw k (by rw [e]; simp)) hi1 ha
      obtain ⟨hh2, hn2, hn2'⟩ := ih s' eb (fun hm => hb (by simp [hm])) (fun k hm => hw k (by simp [hm]))
        (inv_step s1 x s' ea hi1 ha) hh hb'
      exact ⟨hh2, by simp [hn, hn2], fun b => by simp [hn' b, hn2' b]⟩
  obtain ⟨hh, hn, hn'⟩ := gen bs s1 e2 hb hw hi1 h0 h2
  exact ⟨hh.2.2, hn, hn'⟩

/-- Coroutine 1 waits for ever until notified; coroutine 0 locks the mutex and notifies. (Concerns co_ctx.cpp:64-207.) -/
def waitThenNotify (locked : Bool) : List Act :=
  [.callLock 1, .run 1 false, .callWait 1 ⟨false, false⟩, .run 1 false, .run 1 false, .run 1 false, .run 1 false, .run 1 false] ++
    (if locked then [.callLock 0, .run 0 false] else []) ++ [.callNotify 0 false, .run 0 false, .run 0 false]

example : ∃ s s1 s2 : St, ∃ e1 e2, s.mtx = some 0 ∧ s.pc 0 = .nWake 1 ∧
    (∃ e0, runs step St.init (waitThenNotify true) = some (s, e0)) ∧ step s (.run 0 false) = some (s1, e1) ∧
    runs step s1 [.run 1 false, .run 0 false] = some (s2, e2) ∧ s2.pc 1 = .wLock ⟨false, false⟩ :=
  ⟨_, _, _, _, _, rfl, rfl, ⟨_, rfl⟩, rfl, rfl, rfl⟩

/-- Without the mutex there is no protection: the wait of coroutine 1 returns while coroutine 0 is still inside `notify_one()`. -/
theorem C106_notify_without_mutex : ∃ as s es, runs step St.init as = some (s, es) ∧ s.pc 0 = .nRel ∧ .ret 1 true ∈ es ∧ s.pc 1 = .out :=
  ⟨waitThenNotify false ++ [.run 0 false, .run 1 false, .run 1 false, .run 1 false], _, _, rfl, rfl, by decide, rfl⟩

end Verif.Cv
