import Verif.Sched.ComposeObjs

/-! # When a scheduling thread goes idle (C101) -/

namespace Verif.Compose

/-- The execution ends in a state in which the scheduler finds nobody to run, everybody who is inside a call of the object is a coroutine
of this env, and no addition, wake-up or priority change of these is half done. (Concerns co_ctx.cpp:181-207, co_env.cpp:216-314.) -/
structure Idle {S A E : Type} (o : Obj S A E) (R : Nat) (s0 : S) (as : List (Act A)) (s : St S) (es : List (Ev E)) : Prop where
  run : runs (step o R) (St.init s0) as = some (s, es)
  pick : ∃ s', step o R s (.env .pick) = some (s', [.env (.pick none)])
  here : ∀ t, o.busy s.obj t = true → Settled (Sched.view (envs es)) t

/-- The coroutine has ended, or it waits for something else than the object `R`. (Concerns co_ctx.cpp:181-207, co_env.cpp:216-314.) -/
def Elsewhere (w : Sched.View) (R t : Nat) : Prop := w.fin t = true ∨ ∃ r ∈ w.waits t, r ≠ R

/-- **C101 for co_mutex**: when the thread goes idle, everybody inside a call of the mutex is queued behind a client that holds it and is
not inside a call; if that client is a coroutine of this thread, it has ended or waits for something else. -/
theorem C101_mutex {R : Nat} {as : List (Act Mutex.Act)} {s : St Mutex.St} {es : List (Ev LockSpec.Ev)}
    (h : Idle mutex R Mutex.St.init as s es) (t : Nat) (ht : s.obj.pc t ≠ .out) :
    t ∈ s.obj.queue ∧ ∃ u, s.obj.owner = some u ∧ s.obj.hold u = true ∧ s.obj.pc u = .out ∧
      (Settled (Sched.view (envs es)) u → Elsewhere (Sched.view (envs es)) R u) := by
  obtain ⟨s', hp⟩ := h.pick
  have hst : ∀ t b, Mutex.step false s.obj (.run t b) = none := fun t b =>
    stuck mutex_laws mutex_init h.run hp rfl h.here (.run t b) rfl
  obtain ⟨h1, u, h2, h3, h4⟩ := Mutex.C06_mutex_stuck_only_behind_holder s.obj ⟨_, _, obj_runs as _ _ _ h.run⟩ hst t ht
  exact ⟨h1, u, h2, h3, h4, fun hu => (C101_idle mutex_laws mutex_init h.run hp rfl u hu).2 (by simp [mutex, h4])⟩

/-- Who makes no step of the object stays outside. -/
theorem absent {S A E : Type} {o : Obj S A E} {I : S → Prop} (L : Laws o I) (t : Nat) : ∀ (as : List A) (s s' : S) (es : List E), I s →
    runs o.step s as = some (s', es) → (∀ a ∈ as, o.who a ≠ t) → o.busy s' t = o.busy s t := by
  intro as
  induction as with
  | nil =>
    intro s s' es _ h _
    simp only [runs, Option.some.injEq, Prod.mk.injEq] at h
    rw [h.1]
  | cons a as ih =>
    intro s s' es hI h ha
    obtain ⟨s1, e1, e2, h1, h2, rfl⟩ := runs_cons h
    rw [ih s1 s' e2 (L.inv hI h1) h2 (fun b hb => ha b (by simp [hb])), (L.other hI h1 t (Ne.symm (ha a (by simp)))).1]

/-- `Idle` if the list `l` has everybody who makes steps of the object. -/
theorem idle_of {S A E : Type} {o : Obj S A E} {I : S → Prop} (L : Laws o I) {R : Nat} {s0 : S} (h0 : I s0) {as : List (Act A)}
    {s s' : St S} {es : List (Ev E)} (hr : runs (step o R) (St.init s0) as = some (s, es))
    (hp : step o R s (.env .pick) = some (s', [.env (.pick none)])) (l : List Nat) (hl : ∀ a ∈ objActs as, o.who a ∈ l)
    (hb : ∀ t, o.busy s0 t = false) (hq : ∀ t ∈ l, o.busy s.obj t = true → Settled (Sched.view (envs es)) t) :
    Idle o R s0 as s es := by
  refine ⟨hr, ⟨s', hp⟩, fun t ht => ?_⟩
  by_cases h : t ∈ l
  · exact hq t h ht
  · have := absent L t _ _ _ _ h0 (obj_runs as _ _ _ hr) (fun a ha he => h (he ▸ hl a ha))
    rw [ht, hb] at this
    cases this

instance (w : Sched.View) (t : Nat) : Decidable (Settled w t) := by unfold Settled; infer_instance

/-- A ready coroutine `c` of priority `p` is added to the env. (Concerns co_ctx.cpp:181-207, co_env.cpp:216-314.) -/
def come {A : Type} (c p : Nat) : List (Act A) := (Sched.addAll c p).map .env

/-- The rest of the wake-up of `c`. (Concerns co_ctx.cpp:181-207, co_env.cpp:216-314.) -/
def rouse {A : Type} (c p : Nat) : List (Act A) := [.env (.wake c .test), .env (.wake c .read), .env (.wake c (.upd p))]

/-- `t` makes `n` steps inside its call; the time to spin is over. (Concerns co_ctx.cpp:181-207, co_env.cpp:216-314.) -/
def steps (n t : Nat) : List (Act Mutex.Act) := List.replicate n (.obj (.run t true))

/-- 1 takes the mutex and waits for something else (9); 2 wants the mutex. (Concerns co_ctx.cpp:181-207, co_env.cpp:216-314.) -/
def demo : List (Act Mutex.Act) :=
  come 1 5 ++ come 2 5 ++ [.env .pick, .obj (.callLock 1)] ++ steps 4 1 ++ [.env (.enter 1 9), .env .pick, .obj (.callLock 2)] ++ steps 5 2

/-- Non-trivial case of C101: 1 holds the mutex and waits for 9, 2 waits for the mutex: the thread goes idle. -/
example : ∃ s es, Idle mutex 7 Mutex.St.init demo s es ∧ s.obj.pc 2 ≠ .out ∧ Elsewhere (Sched.view (envs es)) 7 1 := by
  exact ⟨_, _, idle_of mutex_laws mutex_init rfl rfl [1, 2] (by decide) (fun _ => rfl) (by decide), by decide,
    .inr ⟨9, by decide, by decide⟩⟩

/-- It goes on when 1 is woken: 1 unlocks, 2 is handed the mutex, woken and picked. -/
example : (runs (step mutex 7) (St.init Mutex.St.init) (demo ++ [.env .pick, .env (.leave 1 9)] ++ rouse 1 5 ++
      [.env .pick, .obj (.callUnlock 1)] ++ steps 3 1 ++ rouse 2 5 ++ [.env (.finish 1), .env .pick] ++ steps 4 2)).map
        (fun p => p.2.drop 10) =
    some [.env (.enter 2 7), .env (.pick none), .env (.leave 1 9), .env (.wakeBegin 1), .env (.wakeDone 1), .env (.pick (some 1)),
      .obj (.unlockCall 1), .env (.leave 2 7), .env (.wakeBegin 2), .obj (.unlockRet 1 true), .env (.wakeDone 2), .env (.finish 1),
      .env (.pick (some 2)), .obj (.acq 2)] := by decide

/-- **C101 for co_recursive_mutex**. -/
theorem C101_recursive_mutex {R : Nat} {as : List (Act RecMutex.Act)} {s : St RecMutex.St} {es : List (Ev LockSpec.Ev)}
    (h : Idle recMutex R RecMutex.St.init as s es) (t : Nat) (ht : s.obj.pc t ≠ .out) :
    t ∈ s.obj.queue ∧ ∃ u, s.obj.owner = some u ∧ 0 < s.obj.depth u ∧ s.obj.pc u = .out ∧
      (Settled (Sched.view (envs es)) u → Elsewhere (Sched.view (envs es)) R u) := by
  obtain ⟨s', hp⟩ := h.pick
  have hst : ∀ t b, RecMutex.step s.obj (.run t b) = none := fun t b =>
    stuck recMutex_laws recMutex_init h.run hp rfl h.here (.run t b) rfl
  obtain ⟨h1, u, h2, h3, h4⟩ :=
    (RecMutex.C10_recursive_mutex_progress s.obj ⟨_, _, obj_runs as _ _ _ h.run⟩).1 hst t ht
  exact ⟨h1, u, h2, h3, h4, fun hu => (C101_idle recMutex_laws recMutex_init h.run hp rfl u hu).2 (by simp [recMutex, h4])⟩

/-- 1 takes the recursive mutex twice and waits for something else (9); 2 wants it. (Concerns co_ctx.cpp:181-207, co_env.cpp:216-314.) -/
def recDemo : List (Act RecMutex.Act) :=
  come 1 5 ++ come 2 5 ++ [.env .pick, .obj (.callLock 1)] ++ List.replicate 3 (.obj (.run 1 true)) ++ [.obj (.callLock 1)] ++
  List.replicate 3 (.obj (.run 1 true)) ++ [.env (.enter 1 9), .env .pick, .obj (.callLock 2)] ++ List.replicate 6 (.obj (.run 2 true))

/-- Non-trivial case: the thread goes idle with 1 holding the mutex at depth 2. -/
example : ∃ s es, Idle recMutex 7 RecMutex.St.init recDemo s es ∧ s.obj.pc 2 ≠ .out ∧ s.obj.depth 1 = 2 ∧
    Elsewhere (Sched.view (envs es)) 7 1 := by
  exact ⟨_, _, idle_of recMutex_laws recMutex_init rfl rfl [1, 2] (by decide) (fun _ => rfl) (by decide), by decide, rfl,
    .inr ⟨9, by decide, by decide⟩⟩

/-- **C101 for co_shared_mutex**, as far as it goes: if never a reader is first in the queue with a writer behind it when the last holder
releases the mutex. -/
theorem C101_shared_mutex_partial {R : Nat} {as : List (Act SharedMutex.Act)} {s : St SharedMutex.St} {es : List (Ev RwSpec.Ev)}
    (h : Idle sharedMutex R SharedMutex.St.init as s es) (hm : SharedMutex.NoMixedWake (objActs as)) (t : Nat)
    (ht : s.obj.pc t ≠ .out) :
    t ∈ s.obj.queue.map Prod.snd ∧ ∃ u, u ∈ s.obj.owners ∧ s.obj.hold u ≠ none ∧ s.obj.pc u = .out ∧
      (Settled (Sched.view (envs es)) u → Elsewhere (Sched.view (envs es)) R u) := by
  obtain ⟨s', hp⟩ := h.pick
  have hst : ∀ t b, SharedMutex.step s.obj (.run t b) = none := fun t b =>
    stuck sharedMutex_laws sharedMutex_init h.run hp rfl h.here (.run t b) rfl
  obtain ⟨h1, u, h2, h3, h4⟩ :=
    SharedMutex.C13_stuck_only_behind_holder_partial (objActs as) s.obj (objs es) (obj_runs as _ _ _ h.run) hm hst t ht
  exact ⟨h1, u, h2, h3, h4, fun hu => (C101_idle sharedMutex_laws sharedMutex_init h.run hp rfl u hu).2 (by simp [sharedMutex, h4])⟩

/-- Steps inside a call of the shared mutex. (Concerns co_ctx.cpp:181-207, co_env.cpp:216-314.) -/
def rsteps (n t : Nat) : List (Act SharedMutex.Act) := List.replicate n (.obj (.run t true))

/-- 1 has the mutex exclusively; a reader (2) and then a writer (3) queue up; 1 releases it, the writer comes and goes. (Concerns co_ctx.cpp:181-207, co_env.cpp:216-314.) -/
def stranded : List (Act SharedMutex.Act) :=
  come 1 5 ++ come 2 5 ++ come 3 5 ++ [.env .pick, .obj (.callLock .unique 1)] ++ rsteps 3 1 ++
  [.env (.enter 1 9), .env .pick, .obj (.callLock .shared 2)] ++ rsteps 6 2 ++ [.env .pick, .obj (.callLock .unique 3)] ++ rsteps 6 3 ++
  [.env (.leave 1 9)] ++ rouse 1 5 ++ [.env .pick, .obj (.callUnlock .unique 1)] ++ rsteps 3 1 ++ rouse 3 5 ++
  [.env (.finish 1), .env .pick] ++ rsteps 4 3 ++ [.obj (.callUnlock .unique 3)] ++ rsteps 3 3 ++ [.env (.finish 3)]

/-- Non-trivial case of `C101_shared_mutex_partial`: 1 has the mutex exclusively and waits for something else, 2 queues up. -/
example : ∃ as s es, Idle sharedMutex 7 SharedMutex.St.init as s es ∧ SharedMutex.NoMixedWake (objActs as) ∧ s.obj.pc 2 ≠ .out := by
  exact ⟨come 1 5 ++ come 2 5 ++ [.env .pick, .obj (.callLock .unique 1)] ++ rsteps 3 1 ++
    [.env (.enter 1 9), .env .pick, .obj (.callLock .unique 2)] ++ rsteps 6 2, _, _,
    idle_of sharedMutex_laws sharedMutex_init rfl rfl [1, 2] (by decide) (fun _ => rfl) (by decide),
    SharedMutex.no_mixed_of_unused _ .shared (by intro t ht; revert ht; simp [objActs, come, rsteps, Sched.addAll, List.replicate]), by decide⟩

/-- Who makes no step of the mutex never holds it. -/
theorem shared_hold (t : Nat) : ∀ (as : List SharedMutex.Act) (s s' : SharedMutex.St) (es : List RwSpec.Ev),
    runs SharedMutex.step s as = some (s', es) → (∀ a ∈ as, sharedMutex.who a ≠ t) → s.hold t = none → s'.hold t = none := by
  intro as
  induction as with
  | nil =>
    intro s s' es h _ h0
    simp only [runs, Option.some.injEq, Prod.mk.injEq] at h
    rw [← h.1]; exact h0
  | cons a as ih =>
    intro s s' es h ha h0
    obtain ⟨s1, e1, e2, h1, h2, rfl⟩ := runs_cons h
    refine ih s1 s' e2 h2 (fun b hb => ha b (by simp [hb])) ?_
    have hne := Ne.symm (ha a (by simp))
    have hw : ∀ q : SharedMutex.St, q.wake.hold = q.hold := by
      intro q; simp only [SharedMutex.St.wake]; repeat' split
      all_goals rfl
    cases a with
    | callLock m u | callTry m u | callUnlock m u =>
      simp only [sharedMutex] at hne
      simp only [SharedMutex.step, SharedMutex.St.goto] at h1
      split at h1 <;> cases h1
      simp only
      grind
    | run u b =>
      simp only [sharedMutex] at hne
      simp only [SharedMutex.step, SharedMutex.runStep] at h1
      cases hp : s.pc u <;> simp only [hp, SharedMutex.St.acquire, SharedMutex.St.goto, SharedMutex.St.take] at h1 <;>
        (repeat' split at h1) <;> cases h1
      all_goals simp only
      all_goals grind

/-- **C101 for co_shared_mutex, the rest is false**: the thread goes idle though a reader waits and nobody holds the mutex: both other
coroutines have returned from `unlock` and ended. The reader is in no queue. -/
theorem C101_shared_mutex_stranded : ∃ s es, Idle sharedMutex 7 SharedMutex.St.init stranded s es ∧
    (∃ m, s.obj.pc 2 = .lkParked m) ∧ s.obj.asleep 2 = true ∧ 2 ∉ s.obj.queue.map Prod.snd ∧ (∀ u, s.obj.hold u = none) ∧
    (Sched.view (envs es)).fin 1 = true ∧ (Sched.view (envs es)).fin 3 = true := by
  have hr : ∃ s es, runs (step sharedMutex 7) (St.init SharedMutex.St.init) stranded = some (s, es) := ⟨_, _, rfl⟩
  obtain ⟨s, es, hr⟩ := hr
  have hw : ∀ a ∈ objActs stranded, sharedMutex.who a ∈ [1, 2, 3] := by decide
  have hh : ∀ u, s.obj.hold u = none := by
    intro u
    by_cases hu : u ∈ [1, 2, 3]
    · have : (runs (step sharedMutex 7) (St.init SharedMutex.St.init) stranded).all (fun r => [1, 2, 3].all fun u =>
          r.1.obj.hold u == none) = true := by decide
      rw [hr] at this
      simp only [Option.all_some, List.all_eq_true] at this
      simpa using this u hu
    · exact shared_hold u _ _ _ _ (obj_runs stranded _ _ _ hr) (fun a ha he => hu (he ▸ hw a ha)) rfl
  refine ⟨s, es, ?_, ?_, ?_, ?_, hh, ?_, ?_⟩
  · cases hr
    exact idle_of sharedMutex_laws sharedMutex_init rfl rfl [1, 2, 3] hw (fun _ => rfl) (by decide)
  all_goals cases hr
  · exact ⟨.shared, rfl⟩
  · rfl
  · decide
  · decide
  · decide

section
open Monitor
variable {σ C K V E : Type} [DecidableEq C]

theorem monitor_stuck {o : Monitor.Obj σ C K V E} {R : Nat} {s0 : σ} {as : List (Act (FAct K))} {s : St (Full σ C K V)}
    {es : List (Ev (Monitor.Ev K V E))} (h : Idle (monitor o) R (Full.init s0) as s es) :
    runs (Full.step o) (Full.init s0) (objActs as) = some (s.obj, objs es) ∧ s.obj.Stuck o := by
  obtain ⟨s', hp⟩ := h.pick
  exact ⟨obj_runs as _ _ _ h.run, fun t b =>
    stuck (monitor_laws o s0) (monitor_init o s0) h.run hp rfl h.here (.run t b) rfl⟩

/-- **C101 for every object made of a mutex and condition variables**: when the thread goes idle, nobody is inside `lock()` or `unlock()`;
everybody inside a call of the object waits in the queue of a condition variable. -/
theorem C101_monitor {o : Monitor.Obj σ C K V E} {R : Nat} {s0 : σ} {as : List (Act (FAct K))} {s : St (Full σ C K V)}
    {es : List (Ev (Monitor.Ev K V E))} (h : Idle (monitor o) R (Full.init s0) as s es) :
    (∀ t, s.obj.mx.pc t = .out) ∧
    ∀ t, s.obj.low.pc t = .idle ∨ ∃ c k, s.obj.low.pc t = .pYield c k ∧ s.obj.low.asleep t = true ∧ t ∈ s.obj.low.wl c := by
  obtain ⟨h1, h2⟩ := monitor_stuck h
  have := C22_real_mutex_stuck o s0 s.obj ⟨_, _, h1⟩ h2
  exact ⟨this.1, this.2.2⟩

/-- **C101 for co_counting_semaphore**: when the thread goes idle, who is inside a call waits for a permit and there is none, or waits to
put one back and the semaphore is full. -/
theorem C101_semaphore {R : Nat} {M d : Int} (hd : 0 ≤ d ∧ d ≤ M) {as : List (Act (FAct Semaphore.Op))}
    {s : St (Full Int Semaphore.Cv Semaphore.Op Bool)} {es : List (Ev _)}
    (h : Idle (monitor (Semaphore.obj M)) R (Full.init d) as s es) (t : Nat) :
    s.obj.low.pc t = .idle ∨ (s.obj.low.pc t = .pYield .empty .acquire ∧ s.obj.low.sh = 0) ∨
      (∃ n, s.obj.low.pc t = .pYield .full (.release n) ∧ s.obj.low.sh = M) := by
  obtain ⟨h1, h2⟩ := monitor_stuck h
  exact (C24_semaphore_real_mutex M d hd _ s.obj _ h1).2.2.1 h2 t

/-- **C101 for co_latch**: when the thread goes idle, who is inside a call waits, and the counter is not zero. -/
theorem C101_latch {R : Nat} {e : Int} (he : 0 ≤ e) {as : List (Act (FAct Latch.Op))} {s : St (Full Int Unit Latch.Op Latch.Res)}
    {es : List (Ev _)} (h : Idle (monitor Latch.obj) R (Full.init e) as s es) (t : Nat) :
    s.obj.low.pc t = .idle ∨ (s.obj.low.pc t = .pYield () .wait ∧ 0 < s.obj.low.sh) := by
  obtain ⟨h1, h2⟩ := monitor_stuck h
  exact (C26_latch_real_mutex e he _ s.obj _ h1).2.2.1 h2 t

/-- **C101 for co_wait_group**: when the thread goes idle, who is inside a call waits, and fewer than `n` were done. -/
theorem C101_wait_group {R : Nat} {n : Nat} {as : List (Act (FAct WaitGroup.Op))}
    {s : St (Full Nat Unit WaitGroup.Op WaitGroup.Res)} {es : List (Ev _)}
    (h : Idle (monitor (WaitGroup.obj n)) R (Full.init 0) as s es) (t : Nat) :
    s.obj.low.pc t = .idle ∨ (s.obj.low.pc t = .pYield () .wait ∧ WaitGroup.dones (objs es) < n) := by
  obtain ⟨h1, h2⟩ := monitor_stuck h
  exact (C27_wait_group_real_mutex n _ s.obj _ h1).2.2.1 h2 t

/-- **C101 for co_barrier**: when the thread goes idle, who is inside a call waits in a phase in which fewer than `M` have come. -/
theorem C101_barrier {R : Nat} {M : Int} (hM : 0 < M) {as : List (Act (FAct Barrier.Op))}
    {s : St (Full Barrier.B Unit Barrier.Op Barrier.Res)} {es : List (Ev _)}
    (h : Idle (monitor (Barrier.obj M)) R (Full.init (Barrier.B.init M)) as s es) (hc : Barrier.Clients (objs es)) (t : Nat) :
    s.obj.low.pc t = .idle ∨
      (s.obj.low.pc t = .pYield () (.resume s.obj.low.sh.gen) ∧ Barrier.waitedIn s.obj.low.sh.gen (objs es) < M) := by
  obtain ⟨h1, h2⟩ := monitor_stuck h
  exact (C29_barrier_real_mutex M hM _ s.obj _ h1 hc).2.2.1 h2 t

/-- **C101 for co_chan** (with a buffer): when the thread goes idle, who is inside a call receives and the channel is empty and open, or
sends and it is full and open. -/
theorem C101_channel {α : Type} {R : Nat} {kd : Chan.Kind} (hk : kd ≠ .sync) {as : List (Act (FAct (Chan.Op α)))}
    {s : St (Full (Chan.Ch α) Chan.Cv (Chan.Op α) (Chan.Res α))} {es : List (Ev _)}
    (h : Idle (monitor (Chan.obj kd)) R (Full.init Chan.Ch.init) as s es) (hc : Chan.Client (objs es)) (t : Nat) :
    s.obj.low.pc t = .idle ∨
      ((s.obj.low.pc t = .pYield .empty .popW ∨ s.obj.low.pc t = .pYield .empty .nextW) ∧ s.obj.low.sh = ⟨[], false⟩) ∨
      (∃ n v, kd = .fixed n ∧ s.obj.low.pc t = .pYield .full (.pushW v) ∧ s.obj.low.sh.data.length = n ∧
        s.obj.low.sh.closed = false) := by
  obtain ⟨h1, h2⟩ := monitor_stuck h
  exact (C37_channel_real_mutex kd _ s.obj _ h1 hc).2.2.2.1 hk h2 t

/-- 1 goes through the call `j` (`m` steps inside it) and ends; then 2 calls `k` and makes `n` steps. (Concerns co_ctx.cpp:181-207, co_env.cpp:216-314.) -/
def twoCalls (K : Type) (j k : K) (m n : Nat) : List (Act (FAct K)) :=
  come 1 5 ++ come 2 5 ++ [.env .pick, .obj (.call 1 j)] ++ List.replicate m (.obj (.run 1 true)) ++
  [.env (.finish 1), .env .pick, .obj (.call 2 k)] ++ List.replicate n (.obj (.run 2 true))

/-- Non-trivial case of `C101_semaphore`: 1 has taken the only permit, 2 waits for it. -/
example : ∃ s es, Idle (monitor (Semaphore.obj 1)) 7 (Full.init 1) (twoCalls _ .acquire .acquire 13 14) s es ∧
    s.obj.low.pc 2 = .pYield .empty .acquire := by
  exact ⟨_, _, idle_of (monitor_laws _ _) (monitor_init _ _) rfl rfl [1, 2] (by decide) (fun _ => rfl) (by decide), rfl⟩

/-- Non-trivial case of `C101_latch`: 1 has counted down from 2, 2 waits. -/
example : ∃ s es, Idle (monitor Latch.obj) 7 (Full.init 2) (twoCalls _ (.countDown 1) .wait 10 14) s es ∧
    s.obj.low.pc 2 = .pYield () .wait := by
  exact ⟨_, _, idle_of (monitor_laws _ _) (monitor_init _ _) rfl rfl [1, 2] (by decide) (fun _ => rfl) (by decide), rfl⟩

/-- Non-trivial case of `C101_wait_group`: one of two is done, 2 waits. -/
example : ∃ s es, Idle (monitor (WaitGroup.obj 2)) 7 (Full.init 0) (twoCalls _ .done .wait 10 14) s es ∧
    s.obj.low.pc 2 = .pYield () .wait := by
  exact ⟨_, _, idle_of (monitor_laws _ _) (monitor_init _ _) rfl rfl [1, 2] (by decide) (fun _ => rfl) (by decide), rfl⟩

/-- Non-trivial case of `C101_barrier`: of three one has come and left, 2 waits. -/
example : ∃ s es, Idle (monitor (Barrier.obj 3)) 7 (Full.init (Barrier.B.init 3)) (twoCalls _ (.arrive 1) .arriveWait 10 24) s es ∧
    s.obj.low.pc 2 = .pYield () (.resume s.obj.low.sh.gen) := by
  exact ⟨_, _, idle_of (monitor_laws _ _) (monitor_init _ _) rfl rfl [1, 2] (by decide) (fun _ => rfl) (by decide), rfl⟩

/-- 1 receives from an empty channel of capacity 1. (Concerns co_ctx.cpp:181-207, co_env.cpp:216-314.) -/
def chanDemo : List (Act (FAct (Chan.Op Nat))) :=
  come 1 5 ++ come 2 5 ++ [.env .pick, .obj (.call 1 .pop)] ++ List.replicate 14 (.obj (.run 1 true)) ++ [.env .pick, .env (.finish 2)]

/-- Non-trivial case: the thread goes idle while 1 waits for a value; -/
example : ∃ s es, Idle (monitor (Chan.obj (α := Nat) (.fixed 1))) 7 (Full.init Chan.Ch.init) chanDemo s es ∧
    s.obj.low.pc 1 = .pYield .empty .popW ∧ s.obj.low.sh = ⟨[], false⟩ := by
  exact ⟨_, _, idle_of (monitor_laws (Chan.obj (α := Nat) (.fixed 1)) Chan.Ch.init) (monitor_init _ _) rfl rfl [1] (by decide) (fun _ => rfl)
    (by decide), rfl, rfl⟩

end
end Verif.Compose
