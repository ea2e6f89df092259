import Verif.Sched.ComposeMany

/-! # Objects, programs and pipelines when all threads are idle (C103) -/

namespace Verif.Compose.Many

/-- **C103 for co_mutex**: when all threads are idle, everybody inside a call of the mutex is queued behind a client that holds it and is
not inside a call; if that client is a coroutine of one of the threads, it has ended or waits for something else. -/
theorem C103_mutex {R n : Nat} {as : List (Act Mutex.Act)} {s : St Mutex.St} {es : List (Ev LockSpec.Ev)}
    (h : Idle mutex R n Mutex.St.init as s es) (t : Nat) (ht : s.obj.pc t ≠ .out) :
    t ∈ s.obj.queue ∧ ∃ u, s.obj.owner = some u ∧ s.obj.hold u = true ∧ s.obj.pc u = .out ∧
      ∀ e < n, Settled (Sched.view (envs (proj e es))) u → Elsewhere (Sched.view (envs (proj e es))) R u := by
  have hst : ∀ t b, Mutex.step false s.obj (.run t b) = none := fun t b => stuck mutex_laws mutex_init h (.run t b) rfl
  obtain ⟨h1, u, h2, h3, h4⟩ := Mutex.C06_mutex_stuck_only_behind_holder s.obj ⟨_, _, obj_runs as _ _ _ h.run⟩ hst t ht
  exact ⟨h1, u, h2, h3, h4, fun e he hu => elsewhere mutex_laws mutex_init h he (by simp [mutex, h4]) hu⟩

/-- **C103 for co_recursive_mutex**. -/
theorem C103_recursive_mutex {R n : Nat} {as : List (Act RecMutex.Act)} {s : St RecMutex.St} {es : List (Ev LockSpec.Ev)}
    (h : Idle recMutex R n RecMutex.St.init as s es) (t : Nat) (ht : s.obj.pc t ≠ .out) :
    t ∈ s.obj.queue ∧ ∃ u, s.obj.owner = some u ∧ 0 < s.obj.depth u ∧ s.obj.pc u = .out ∧
      ∀ e < n, Settled (Sched.view (envs (proj e es))) u → Elsewhere (Sched.view (envs (proj e es))) R u := by
  have hst : ∀ t b, RecMutex.step s.obj (.run t b) = none := fun t b => stuck recMutex_laws recMutex_init h (.run t b) rfl
  obtain ⟨h1, u, h2, h3, h4⟩ :=
    (RecMutex.C10_recursive_mutex_progress s.obj ⟨_, _, obj_runs as _ _ _ h.run⟩).1 hst t ht
  exact ⟨h1, u, h2, h3, h4, fun e he hu => elsewhere recMutex_laws recMutex_init h he (by simp [recMutex, h4]) hu⟩

/-- `Idle` if the list `l` has everybody who makes steps of the object. -/
theorem idle_of {S A E : Type} {o : Obj S A E} {I : S → Prop} (L : Laws o I) {R n : Nat} {s0 : S} (h0 : I s0) {as : List (Act A)}
    {s : St S} {es : List (Ev E)} (hr : runs (step o R n) (St.init s0) as = some (s, es))
    (hp : ∀ e < n, ∃ s', step o R n s (.env e .pick) = some (s', [.env e (.pick none)])) (l : List Nat)
    (hl : ∀ a ∈ objActs as, o.who a ∈ l) (hb : ∀ t, o.busy s0 t = false)
    (hq : ∀ t ∈ l, o.busy s.obj t = true → ∃ e < n, Settled (Sched.view (envs (proj e es))) t) : Idle o R n s0 as s es := by
  refine ⟨hr, hp, fun t ht => ?_⟩
  by_cases h : t ∈ l
  · exact hq t h ht
  · have := absent L t _ _ _ _ h0 (obj_runs as _ _ _ hr) (fun a ha he => h (he ▸ hl a ha))
    rw [ht, hb] at this
    cases this

/-- A ready coroutine `c` of priority `p` is added to thread `e`. (Concerns co_manager.cpp:266-491, co_env.cpp:241-612.) -/
def come {A : Type} (e c p : Nat) : List (Act A) := (Sched.addAll c p).map (.env e)

/-- A coroutine that waits for `R` already is added. (Concerns co_manager.cpp:266-491, co_env.cpp:241-612.) -/
def comeAsleep {A : Type} (e c p R : Nat) : List (Act A) :=
  [.env e (.add c { Sched.ready p with res := [R], waiting := true }), .env e (.wake c .read), .env e (.wake c (.upd p))]

/-- The rest of the wake-up of `c`, a coroutine of thread `e`. (Concerns co_manager.cpp:266-491, co_env.cpp:241-612.) -/
def rouse {A : Type} (e c p : Nat) : List (Act A) :=
  [.env e (.wake c .test), .env e (.wake c .read), .env e (.wake c (.upd p))]

/-- 1 runs on thread 0, takes the mutex and waits for something else (9); 2 runs on thread 1, wants the mutex, goes to sleep and is moved
to thread 0. (Concerns co_manager.cpp:266-491, co_env.cpp:241-612.) -/
def demo : List (Act Mutex.Act) :=
  come 0 1 5 ++ come 1 2 5 ++ [.env 0 .pick, .env 1 .pick, .obj (.callLock 1)] ++ List.replicate 4 (.obj (.run 1 true)) ++
  [.obj (.callLock 2)] ++ List.replicate 3 (.obj (.run 2 true)) ++ [.env 0 (.enter 1 9)] ++ List.replicate 2 (.obj (.run 2 true)) ++
  [.env 1 .pick, .env 1 .takeAll] ++ comeAsleep 0 2 5 7

/-- Non-trivial case of `C103_mutex`. -/
example : ∃ s es, Idle mutex 7 2 Mutex.St.init demo s es ∧ s.obj.pc 2 ≠ .out ∧ Elsewhere (Sched.view (envs (proj 0 es))) 7 1 := by
  refine ⟨_, _, idle_of mutex_laws mutex_init rfl ?_ [1, 2] (by decide) (fun _ => rfl) (by decide), by decide, .inr ⟨9, by decide, by decide⟩⟩
  intro e he
  match e, he with
  | 0, _ => exact ⟨_, rfl⟩
  | 1, _ => exact ⟨_, rfl⟩

/-- It goes on when 1 is woken: 1 unlocks, 2 is handed the mutex, woken and picked - by the thread it is on now. -/
example : (runs (step mutex 7 2) (St.init Mutex.St.init) (demo ++ [.env 0 .pick, .env 1 .pick, .env 0 (.leave 1 9)] ++ rouse 0 1 5 ++
      [.env 0 .pick, .obj (.callUnlock 1)] ++ List.replicate 3 (.obj (.run 1 true)) ++ rouse 0 2 5 ++ [.env 0 (.finish 1), .env 0 .pick] ++
      List.replicate 4 (.obj (.run 2 true)))).map (fun p => p.2.drop 11) =
    some [.env 1 (.pick none), .env 1 (.take [2]), .env 0 (.add 2 5 [7] false), .env 0 (.wakeBegin 2), .env 0 (.wakeDone 2),
      .env 0 (.pick none), .env 1 (.pick none), .env 0 (.leave 1 9), .env 0 (.wakeBegin 1), .env 0 (.wakeDone 1), .env 0 (.pick (some 1)),
      .obj (.unlockCall 1), .env 0 (.leave 2 7), .env 0 (.wakeBegin 2), .obj (.unlockRet 1 true), .env 0 (.wakeDone 2), .env 0 (.finish 1),
      .env 0 (.pick (some 2)), .obj (.acq 2)] := by decide

section
open Monitor
variable {σ C K V E : Type} [DecidableEq C]

theorem monitor_stuck {o : Monitor.Obj σ C K V E} {R n : Nat} {s0 : σ} {as : List (Act (FAct K))} {s : St (Full σ C K V)}
    {es : List (Ev (Monitor.Ev K V E))} (h : Idle (monitor o) R n (Full.init s0) as s es) :
    runs (Full.step o) (Full.init s0) (objActs as) = some (s.obj, objs es) ∧ s.obj.Stuck o :=
  ⟨obj_runs as _ _ _ h.run, fun t b => stuck (monitor_laws o s0) (monitor_init o s0) h (.run t b) rfl⟩

/-- **C103 for every object made of a mutex and condition variables**: when all threads are idle, nobody is inside `lock()` or `unlock()`;
everybody inside a call of the object waits in the queue of a condition variable. -/
theorem C103_monitor {o : Monitor.Obj σ C K V E} {R n : Nat} {s0 : σ} {as : List (Act (FAct K))} {s : St (Full σ C K V)}
    {es : List (Ev (Monitor.Ev K V E))} (h : Idle (monitor o) R n (Full.init s0) as s es) :
    (∀ t, s.obj.mx.pc t = .out) ∧
    ∀ t, s.obj.low.pc t = .idle ∨ ∃ c k, s.obj.low.pc t = .pYield c k ∧ s.obj.low.asleep t = true ∧ t ∈ s.obj.low.wl c := by
  obtain ⟨h1, h2⟩ := monitor_stuck h
  have := C22_real_mutex_stuck o s0 s.obj ⟨_, _, h1⟩ h2
  exact ⟨this.1, this.2.2⟩

/-- **C103 for co_counting_semaphore**: when all threads are idle, who is inside a call waits for a permit and there is none (or waits for
room and there is none). -/
theorem C103_semaphore {R n : Nat} {M d : Int} (hd : 0 ≤ d ∧ d ≤ M) {as : List (Act (FAct Semaphore.Op))}
    {s : St (Full Int Semaphore.Cv Semaphore.Op Bool)} {es : List (Ev _)}
    (h : Idle (monitor (Semaphore.obj M)) R n (Full.init d) as s es) (t : Nat) :
    s.obj.low.pc t = .idle ∨ (s.obj.low.pc t = .pYield .empty .acquire ∧ s.obj.low.sh = 0) ∨
      (∃ k, s.obj.low.pc t = .pYield .full (.release k) ∧ s.obj.low.sh = M) := by
  obtain ⟨h1, h2⟩ := monitor_stuck h
  exact (C24_semaphore_real_mutex M d hd _ s.obj _ h1).2.2.1 h2 t

/-- **C103 for co_latch**: when all threads are idle, who is inside a call waits and the count is not 0. -/
theorem C103_latch {R n : Nat} {e : Int} (he : 0 ≤ e) {as : List (Act (FAct Latch.Op))} {s : St (Full Int Unit Latch.Op Latch.Res)}
    {es : List (Ev _)} (h : Idle (monitor Latch.obj) R n (Full.init e) as s es) (t : Nat) :
    s.obj.low.pc t = .idle ∨ (s.obj.low.pc t = .pYield () .wait ∧ 0 < s.obj.low.sh) := by
  obtain ⟨h1, h2⟩ := monitor_stuck h
  exact (C26_latch_real_mutex e he _ s.obj _ h1).2.2.1 h2 t

/-- **C103 for co_wait_group**: when all threads are idle, who is inside a call waits, and fewer than `N` were done. -/
theorem C103_wait_group {R n : Nat} {N : Nat} {as : List (Act (FAct WaitGroup.Op))}
    {s : St (Full Nat Unit WaitGroup.Op WaitGroup.Res)} {es : List (Ev _)}
    (h : Idle (monitor (WaitGroup.obj N)) R n (Full.init 0) as s es) (t : Nat) :
    s.obj.low.pc t = .idle ∨ (s.obj.low.pc t = .pYield () .wait ∧ WaitGroup.dones (objs es) < N) := by
  obtain ⟨h1, h2⟩ := monitor_stuck h
  exact (C27_wait_group_real_mutex N _ s.obj _ h1).2.2.1 h2 t

/-- **C103 for co_barrier**: when all threads are idle, who is inside a call waits in a phase in which fewer than `M` have come. -/
theorem C103_barrier {R n : Nat} {M : Int} (hM : 0 < M) {as : List (Act (FAct Barrier.Op))}
    {s : St (Full Barrier.B Unit Barrier.Op Barrier.Res)} {es : List (Ev _)}
    (h : Idle (monitor (Barrier.obj M)) R n (Full.init (Barrier.B.init M)) as s es) (hc : Barrier.Clients (objs es)) (t : Nat) :
    s.obj.low.pc t = .idle ∨
      (s.obj.low.pc t = .pYield () (.resume s.obj.low.sh.gen) ∧ Barrier.waitedIn s.obj.low.sh.gen (objs es) < M) := by
  obtain ⟨h1, h2⟩ := monitor_stuck h
  exact (C29_barrier_real_mutex M hM _ s.obj _ h1 hc).2.2.1 h2 t

/-- **C103 for co_chan**: when all threads are idle, who is inside a call receives from an empty open channel or sends to a full open one. -/
theorem C103_channel {α : Type} {R n : Nat} {kd : Chan.Kind} (hk : kd ≠ .sync) {as : List (Act (FAct (Chan.Op α)))}
    {s : St (Full (Chan.Ch α) Chan.Cv (Chan.Op α) (Chan.Res α))} {es : List (Ev _)}
    (h : Idle (monitor (Chan.obj kd)) R n (Full.init Chan.Ch.init) as s es) (hc : Chan.Client (objs es)) (t : Nat) :
    s.obj.low.pc t = .idle ∨
      ((s.obj.low.pc t = .pYield .empty .popW ∨ s.obj.low.pc t = .pYield .empty .nextW) ∧ s.obj.low.sh = ⟨[], false⟩) ∨
      (∃ k v, kd = .fixed k ∧ s.obj.low.pc t = .pYield .full (.pushW v) ∧ s.obj.low.sh.data.length = k ∧
        s.obj.low.sh.closed = false) := by
  obtain ⟨h1, h2⟩ := monitor_stuck h
  exact (C37_channel_real_mutex kd _ s.obj _ h1 hc).2.2.2.1 hk h2 t

/-- Two threads: 1 on thread 0 calls `j` (`m` steps) and ends, 2 on thread 1 calls `k` (`l` steps); then both look for
somebody to run. (Concerns co_manager.cpp:266-491, co_env.cpp:241-612.) -/
def twoCalls (K : Type) (j k : K) (m l : Nat) : List (Act (FAct K)) :=
  come 0 1 5 ++ come 1 2 5 ++ [.env 0 .pick, .env 1 .pick, .obj (.call 1 j)] ++ List.replicate m (.obj (.run 1 true)) ++
  [.env 0 (.finish 1), .obj (.call 2 k)] ++ List.replicate l (.obj (.run 2 true))

/-- Two idle threads. -/
theorem idle_two {o : Monitor.Obj σ C K V E} {R : Nat} {s0 : σ} {as : List (Act (FAct K))} {s s1 s2 : St (Full σ C K V)}
    {es : List (Ev (Monitor.Ev K V E))} (hr : runs (step (monitor o) R 2) (St.init (Full.init s0)) as = some (s, es))
    (h1 : step (monitor o) R 2 s (.env 0 .pick) = some (s1, [.env 0 (.pick none)]))
    (h2 : step (monitor o) R 2 s (.env 1 .pick) = some (s2, [.env 1 (.pick none)])) (l : List Nat)
    (hl : ∀ a ∈ objActs as, (monitor o).who a ∈ l)
    (hq : ∀ t ∈ l, (monitor o).busy s.obj t = true → ∃ e < 2, Settled (Sched.view (envs (proj e es))) t) :
    Idle (monitor o) R 2 (Full.init s0) as s es := by
  refine idle_of (monitor_laws _ _) (monitor_init _ _) hr ?_ l hl (fun _ => rfl) hq
  intro e he
  match e, he with
  | 0, _ => exact ⟨_, h1⟩
  | 1, _ => exact ⟨_, h2⟩

/-- Non-trivial case of `C103_semaphore` (and C103_monitor): 1 has taken the only permit, 2 waits for it on the other thread. -/
example : ∃ s es, Idle (monitor (Semaphore.obj 1)) 7 2 (Full.init 1) (twoCalls _ .acquire .acquire 13 14) s es ∧
    s.obj.low.pc 2 = .pYield .empty .acquire :=
  ⟨_, _, idle_two rfl rfl rfl [1, 2] (by decide) (by decide), rfl⟩

/-- Non-trivial case of `C103_latch`: 1 has counted down from 2, 2 waits. -/
example : ∃ s es, Idle (monitor Latch.obj) 7 2 (Full.init 2) (twoCalls _ (.countDown 1) .wait 10 14) s es ∧
    s.obj.low.pc 2 = .pYield () .wait :=
  ⟨_, _, idle_two rfl rfl rfl [1, 2] (by decide) (by decide), rfl⟩

/-- Non-trivial case of `C103_wait_group`: one of two is done, 2 waits. -/
example : ∃ s es, Idle (monitor (WaitGroup.obj 2)) 7 2 (Full.init 0) (twoCalls _ .done .wait 10 14) s es ∧
    s.obj.low.pc 2 = .pYield () .wait :=
  ⟨_, _, idle_two rfl rfl rfl [1, 2] (by decide) (by decide), rfl⟩

/-- Non-trivial case of `C103_barrier`: of three one has come and left, 2 waits. -/
example : ∃ s es, Idle (monitor (Barrier.obj 3)) 7 2 (Full.init (Barrier.B.init 3)) (twoCalls _ (.arrive 1) .arriveWait 10 24) s es ∧
    s.obj.low.pc 2 = .pYield () (.resume s.obj.low.sh.gen) :=
  ⟨_, _, idle_two rfl rfl rfl [1, 2] (by decide) (by decide), rfl⟩

/-- Non-trivial case of `C103_channel`: 1 receives from an empty channel of capacity 1, 2 does nothing and ends. -/
example : ∃ s es, Idle (monitor (Chan.obj (α := Nat) (.fixed 1))) 7 2 (Full.init Chan.Ch.init)
    (come 0 1 5 ++ come 1 2 5 ++ [.env 0 .pick, .env 1 .pick, .obj (.call 1 .pop)] ++ List.replicate 14 (.obj (.run 1 true)) ++
      [.env 1 (.finish 2)]) s es ∧ s.obj.low.pc 1 = .pYield .empty .popW ∧ s.obj.low.sh = ⟨[], false⟩ :=
  ⟨_, _, idle_two rfl rfl rfl [1] (by decide) (by decide), rfl, rfl⟩

end

section
open Monitor
variable {σ C K V E W L : Type} [DecidableEq C] [DecidableEq W]

/-- **C103 for any program**: when all threads that run the coroutines of a program are idle, no step of the program is left; nobody is
inside `lock()` or `unlock()` of any mutex; who is inside a call waits in the queue of a condition variable, who is not has ended or waits
for the end of a coroutine that has not ended. -/
theorem C103_program_idle {o : Nat → Monitor.Obj σ C K V E} {p : Prog W L K V} {q : Join W L} (hq : JoinLaws p q) {R n : Nat} {l0 : W → L}
    {s0 : Nat → σ} {as : List (Act (W × Bool))} {s : St (Sys W L V (Full σ C K V))} {es : List (Ev (Nat × Monitor.Ev K V E))}
    (h : Idle (program o p q) R n (Sys.initF l0 s0) as s es) :
    (∀ a, s.obj.step (fullM o) p a = none) ∧ (∀ j t, (s.obj.obs j).mx.pc t = .out) ∧
    ∀ w, match s.obj.inside w with
      | none => q.fin w (s.obj.ps w) = true ∨ ∃ u ∈ q.joins w (s.obj.ps w), q.over (s.obj.ps u) = false
      | some (j, _) => ∃ c k, (s.obj.obs j).low.pc (p.tid w) = .pYield c k ∧ p.tid w ∈ (s.obj.obs j).low.wl c := by
  have hst : ∀ a, s.obj.step (fullM o) p a = none := fun a => stuck (program_laws hq l0 s0) (program_init l0 s0) h a rfl
  obtain ⟨-, h1, h2⟩ := C22_programs_stuck o p l0 s0 _ s.obj _ (obj_runs as _ _ _ h.run) hst
  refine ⟨hst, h1, fun w => ?_⟩
  have h3 := h2 w
  cases hi : s.obj.inside w with
  | some x =>
    rw [hi] at h3
    obtain ⟨c, k, h4, _, h5⟩ := h3
    exact ⟨c, k, h4, h5⟩
  | none =>
    simp only
    cases hf : q.fin w (s.obj.ps w) with
    | true => exact .inl rfl
    | false =>
      right
      have hb : (program o p q).busy s.obj (p.tid w) = true := by simp [program, hq.who.2 rfl, hf]
      have ha := (C103_idle (program_laws hq l0 s0) (program_init l0 s0) h (p.tid w) hb).1
      simpa [program, hq.who.2 rfl, hi, Join.waiting] using ha

end

section
open Monitor Real
variable {α : Type} {it : Bool} {tid : Who → Tid} {inj : ∀ a b, tid a = tid b → a = b} {who : Nat → Option Who}

/-- **C103 for pipelines**: however the coroutines of a pipeline are spread over the threads and moved between them, when all threads are
idle the consumer has received everything: the value of the list functions for the items of the source. -/
theorem C103_pipeline_idle (hwho : ∀ t w, who t = some w ↔ tid w = t) {R n : Nat} {l : List α} {kd : Pipe.Kind}
    {gs : List (Pipe.Stage α)} (hk : kd ≠ .fixed 0) (hf : ∀ g ∈ gs, g.isFork = false) (hg : ∀ m f, Pipe.Stage.group m f ∈ gs → 0 < m)
    {as : List (Act (Who × Bool))} {s : St (Real.Full α)} {es : List (Ev _)}
    (h : Idle (pipeline (Pipe.Pipe.ofList l kd gs) it tid inj who) R n (Sys.initF (start (Pipe.Pipe.ofList l kd gs)) fun _ => Chan.Ch.init)
      as s es) :
    s.obj.ps .consumer = .consumer (gs.foldl (fun l g => g.fn l) l) true :=
  C97_delivered_in_the_end hk hf hg (obj_runs as _ _ _ h.run) (C103_program_idle (pipeJoin_laws _ it hwho) h).1

/-- **C103 for a `fork`**: when all threads are idle the consumer has received the results for all items, in some order. -/
theorem C103_fork_idle (hwho : ∀ t w, who t = some w ↔ tid w = t) {R n : Nat} {l : List α} {kd : Pipe.Kind} {m : Nat} {f : α → α}
    (hk : kd ≠ .fixed 0) (hm : 0 < m) {as : List (Act (Who × Bool))} {s : St (Real.Full α)} {es : List (Ev _)}
    (h : Idle (pipeline (Pipe.Pipe.ofList l kd [.fork m f]) it tid inj who) R n
      (Sys.initF (start (Pipe.Pipe.ofList l kd [.fork m f])) fun _ => Chan.Ch.init) as s es) :
    ∃ Y, s.obj.ps .consumer = .consumer Y true ∧ Y.Perm (l.map f) :=
  C97_fork_delivered_in_the_end hk hm (obj_runs as _ _ _ h.run) (C103_program_idle (pipeJoin_laws _ it hwho) h).1

/-- **C103, any stages and any source**: when all threads are idle and the source has been asked for no more than `X`, the consumer has
received one of the possible results for `X`, completely. -/
theorem C103_any_pipeline_idle (hwho : ∀ t w, who t = some w ↔ tid w = t) {R n : Nat} {P : Pipe.Pipe α} (hok : ∀ g ∈ P.stages, g.Ok)
    (hk : P.kind ≠ .fixed 0) {as : List (Act (Who × Bool))} {s : St (Real.Full α)} {es : List (Ev _)}
    (h : Idle (pipeline P it tid inj who) R n (Sys.initF (start P) fun _ => Chan.Ch.init) as s es) {X : List α}
    (hX : ∀ j < X.length, P.src j = X[j]?) (hn : ∀ k p, s.obj.ps .src = .src k p → k ≤ X.length) :
    s.obj.inside .consumer = none ∧ ∃ Y, Pipe.Dens P.stages X Y ∧ s.obj.ps .consumer = .consumer Y true :=
  C97_progress hok hk (obj_runs as _ _ _ h.run) (C103_program_idle (pipeJoin_laws _ it hwho) h).1 hX hn

/-- An infinite execution. (Concerns co_manager.cpp:266-491, co_env.cpp:241-612.) -/
structure Forever {S A E : Type} (o : Obj S A E) (R n : Nat) (s : St S) (as : Nat → Act A) (g : Nat → St S) : Prop where
  init : g 0 = s
  steps : ∀ i, ∃ es, step o R n (g i) (as i) = some (g (i + 1), es)

/-- The step of the object, if it is one. (Concerns co_manager.cpp:266-491, co_env.cpp:241-612.) -/
def Act.obj? {A : Type} : Act A → Option A
  | .obj a => some a
  | .env _ _ => none

theorem finitely_many {S A E : Type} {o : Obj S A E} {R n : Nat} {ok : A → Prop} {s : St S}
    (hfin : ¬ ∃ f : Nat → S, f 0 = s.obj ∧ ∀ n, ∃ a es, ok a ∧ o.step (f n) a = some (f (n + 1), es)) {as : Nat → Act A} {g : Nat → St S}
    (h : Forever o R n s as g) (hok : ∀ n a, as n = .obj a → ok a) : ∃ n, ∀ m, n ≤ m → ∀ a, as m ≠ .obj a := by
  have hf := finitely (f := o.step) (ok := ok) (g := fun n => (g n).obj) (by rw [h.init]; exact hfin)
    (x := fun n => (as n).obj?) ?_ ?_
  · obtain ⟨n, hn⟩ := hf
    refine ⟨n, fun m hm a ha => ?_⟩
    have := hn m hm
    rw [ha] at this
    cases this
  · intro n a ha
    have ha' : as n = .obj a := by
      cases hq : as n with
      | env _ b => rw [hq] at ha; cases ha
      | obj b => rw [hq] at ha; cases ha; rfl
    refine ⟨hok n a ha', ?_⟩
    obtain ⟨es, hs⟩ := h.steps n
    rw [ha'] at hs
    simp only [step] at hs
    split at hs
    · split at hs
      · cases hs
      · rename_i m es' hm
        simp only [Option.map_eq_some_iff, Prod.mk.injEq] at hs
        obtain ⟨r, -, h1, -⟩ := hs
        exact ⟨es', by rw [← h1]; exact hm⟩
    · cases hs
  · intro n ha
    obtain ⟨es, hs⟩ := h.steps n
    cases hq : as n with
    | obj b => rw [hq] at ha; cases ha
    | env _ b =>
      rw [hq] at hs
      simp only [step] at hs
      split at hs
      · simp only [Option.map_eq_some_iff, Prod.mk.injEq] at hs
        obtain ⟨r, -, h1, -⟩ := hs
        simp only [← h1]
      · cases hs

/-- **C103, the work is finite**: in no infinite execution of the threads do the coroutines of a pipeline make infinitely many steps (the
time to spin for a mutex being over: `true`). -/
theorem C103_pipeline_finite {R n : Nat} {l : List α} {kd : Pipe.Kind} {gs : List (Pipe.Stage α)} (hok : ∀ g ∈ gs, g.Ok)
    {as : List (Act (Who × Bool))} {s : St (Real.Full α)} {es : List (Ev _)}
    (h : runs (step (pipeline (Pipe.Pipe.ofList l kd gs) it tid inj who) R n)
      (St.init (Sys.initF (start (Pipe.Pipe.ofList l kd gs)) fun _ => Chan.Ch.init)) as = some (s, es))
    {bs : Nat → Act (Who × Bool)} {g : Nat → St (Real.Full α)}
    (hf : Forever (pipeline (Pipe.Pipe.ofList l kd gs) it tid inj who) R n s bs g) (hb : ∀ n w b, bs n = .obj (w, b) → b = true) :
    ∃ n, ∀ m, n ≤ m → ∀ a, bs m ≠ .obj a := by
  refine finitely_many (ok := fun a => a.2 = true) ?_ hf fun n a ha => hb n a.1 a.2 ha
  rintro ⟨f, h0, hs⟩
  refine C97_terminates hok (obj_runs as _ _ _ h) ⟨f, h0, fun n => ?_⟩
  obtain ⟨⟨w, b⟩, es, h1, h2⟩ := hs n
  simp only at h1
  subst h1
  exact ⟨w, es, h2⟩

/-! ## A concrete case -/

theorem idle_pipe (P : Pipe.Pipe Nat) {it : Bool} {R n : Nat} {as : List (Act (Who × Bool))} {s : St (Real.Full Nat)} {es : List (Ev _)}
    (hr : runs (step (pipeline P it num num_inj whoNum) R n) (St.init (begin P)) as = some (s, es))
    (hp : ∀ e < n, ∃ s', step (pipeline P it num num_inj whoNum) R n s (.env e .pick) = some (s', [.env e (.pick none)]))
    (hq : ∀ w ∈ crew P, ∃ e < n, Settled (Sched.view (envs (proj e es))) (num w)) :
    Idle (pipeline P it num num_inj whoNum) R n (begin P) as s es := by
  refine ⟨hr, hp, fun t ht => ?_⟩
  cases hw : whoNum t with
  | none => simp [program, pipeJoin, hw] at ht
  | some w =>
    have hn := (whoNum_num t w).1 hw
    by_cases hc : w ∈ crew P
    · rw [← hn]; exact hq w hc
    · have h0 : (pipeline P it num num_inj whoNum).busy (begin P) t = false := by
        have := start_fin P it whoNum w hc
        simp only [program, begin, Sys.initF, Option.isSome_none, Bool.false_or, Bool.not_eq_false',
          show (pipeJoin P it whoNum).who t = some w from hw]
        exact this
      have := calm (program_laws (pipeJoin_laws P it whoNum_num) (start P) fun _ => Chan.Ch.init) (fun _ => rfl) t _ _ _ _
        (program_init _ _) (obj_runs as _ _ _ hr) h0
      rw [this] at ht; cases ht

/-- Thread `e` picks, `w` makes `k` steps, the coroutines `r` (with their threads) are woken, `c` have ended. (Concerns co_manager.cpp:266-491, co_env.cpp:241-612.) -/
def turn (e : Nat) (w : Who) (k : Nat) (r : List (Nat × Nat)) (c : List Nat) : List (Act (Who × Bool)) :=
  [.env e .pick] ++ List.replicate k (.obj (w, true)) ++ r.flatMap (fun x => rouse x.1 x.2 5) ++ c.map fun c => .env e (.finish c)

/-- `sample` with a channel of capacity 1. The source (0) and the first stage (2) are on thread 0, the second stage (4) and the consumer
(1) on thread 1; when the first stage has gone to sleep for the first time it is moved to thread 1. (Concerns co_manager.cpp:266-491, co_env.cpp:241-612.) -/
def turns : List (Act (Who × Bool)) :=
  come 1 1 5 ++ come 1 4 5 ++ come 0 2 5 ++ come 0 0 5 ++ turn 0 (.stage 0) 15 [] [] ++ [.env 0 .pick, .env 0 .takeAll] ++
  comeAsleep 1 2 5 7 ++ turn 1 .consumer 15 [] [] ++ turn 0 .src 32 [(1, 2)] [] ++ turn 1 (.stage 1) 15 [] [] ++ [.env 0 .pick] ++
  turn 1 (.stage 0) 45 [(0, 0), (1, 4)] [] ++ turn 0 .src 31 [(1, 2)] [] ++ turn 1 (.stage 1) 54 [(1, 1)] [] ++ [.env 0 .pick] ++
  turn 1 .consumer 39 [] [] ++ [.env 0 .pick] ++ turn 1 (.stage 0) 45 [(0, 0), (1, 4)] [] ++ turn 0 .src 35 [(1, 2)] [0] ++
  turn 1 (.stage 1) 39 [] [] ++ [.env 0 .pick] ++ turn 1 (.stage 0) 59 [(1, 4)] [2] ++ turn 1 (.stage 1) 99 [(1, 1)] [4] ++
  turn 1 .consumer 65 [] [1]

set_option maxRecDepth 40000 in
/-- Non-trivial case of C103: two threads, a coroutine that moves; in the end both are idle and the consumer has everything. -/
example : ∃ s es, Idle (pipeline (sample (.fixed 1)) true num num_inj whoNum) 7 2 (begin (sample (.fixed 1))) turns s es ∧
    s.obj.ps .consumer = .consumer [2, 6] true := by
  refine ⟨_, _, idle_pipe _ rfl ?_ (by decide), rfl⟩
  intro e he
  match e, he with
  | 0, _ => exact ⟨_, rfl⟩
  | 1, _ => exact ⟨_, rfl⟩

/-- A thread that runs nobody and finds nobody stays as it is. -/
theorem pick_same {S A E : Type} {o : Obj S A E} {R n : Nat} {s : St S} {e : Nat} (he : e < n) (hc : (s.env e).curr = none)
    (hm : (s.env e).mu = none) (hs : (s.env e).search = none) : step o R n s (.env e .pick) = some (s, [.env e (.pick none)]) := by
  have hp : Sched.step false (s.env e) .pick = some (s.env e, [.pick none]) := by
    have : (s.env e).pick = (s.env e, none) := by
      generalize s.env e = x at hc hs
      simp only [Sched.State.pick, hs, hc]
      cases x
      simp only at hc
      subst hc
      rfl
    simp [Sched.step, Sched.State.muFree, hm, this]
  have hu : upd s.env e (s.env e) = s.env := by
    funext i
    by_cases hi : i = e
    · subst hi; exact upd_same _ _ _
    · exact upd_other _ _ hi
  simp only [step]
  rw [if_pos ⟨he, by simp [allowed, St.at, hc], rfl⟩, hp]
  simp [hu]

set_option maxRecDepth 40000 in
/-- Non-trivial case of `C103_pipeline_finite`: after that both threads look for somebody to run for ever. -/
example : ∃ s es, runs (step (pipeline (sample (.fixed 1)) true num num_inj whoNum) 7 2) (St.init (begin (sample (.fixed 1))))
      (turns ++ [.env 0 .pick, .env 1 .pick]) = some (s, es) ∧
    Forever (pipeline (sample (.fixed 1)) true num num_inj whoNum) 7 2 s (fun i => .env (i % 2) .pick) fun _ => s := by
  have key : ∀ s : St (Real.Full Nat), ((s.env 0).curr = none ∧ (s.env 0).mu = none ∧ (s.env 0).search = none) →
      ((s.env 1).curr = none ∧ (s.env 1).mu = none ∧ (s.env 1).search = none) →
      Forever (pipeline (sample (.fixed 1)) true num num_inj whoNum) 7 2 s (fun i => .env (i % 2) .pick) fun _ => s := by
    intro s h0 h1
    refine ⟨rfl, fun i => ?_⟩
    have he : i % 2 = 0 ∨ i % 2 = 1 := by omega
    rcases he with he | he <;> rw [he]
    · exact ⟨_, pick_same (by omega) h0.1 h0.2.1 h0.2.2⟩
    · exact ⟨_, pick_same (by omega) h1.1 h1.2.1 h1.2.2⟩
  exact ⟨_, _, rfl, key _ ⟨rfl, rfl, rfl⟩ ⟨rfl, rfl, rfl⟩⟩

/-- A `fork` with two workers (3 and 5) on thread 1, the other coroutines on thread 0. (Concerns co_manager.cpp:266-491, co_env.cpp:241-612.) -/
def forkTurns : List (Act (Who × Bool)) :=
  come 0 1 5 ++ comeAsleep 0 2 5 7 ++ come 1 3 5 ++ come 1 5 5 ++ come 0 0 5 ++
  turn 1 (.worker 0 0) 15 [] [] ++ turn 0 .consumer 15 [] [] ++ turn 1 (.worker 0 1) 15 [] [] ++ turn 0 .src 52 [(1, 3), (1, 5)] [0] ++
  turn 1 (.worker 0 0) 68 [(0, 1)] [3] ++ turn 0 .consumer 63 [] [] ++ turn 1 (.worker 0 1) 11 [(0, 2)] [5] ++
  turn 0 (.stage 0) 21 [(0, 1)] [2] ++ turn 0 .consumer 31 [] [1]

set_option maxRecDepth 40000 in
/-- Non-trivial case of `C103_fork_idle`. -/
example : ∃ s es, Idle (pipeline (Pipe.Pipe.ofList [1, 2] .unlimited [.fork 2 (2 * ·)]) true num num_inj whoNum) 7 2
    (begin (Pipe.Pipe.ofList [1, 2] .unlimited [.fork 2 (2 * ·)])) forkTurns s es ∧ s.obj.ps .consumer = .consumer [2, 4] true := by
  refine ⟨_, _, idle_pipe _ rfl ?_ (by decide), rfl⟩
  intro e he
  match e, he with
  | 0, _ => exact ⟨_, rfl⟩
  | 1, _ => exact ⟨_, rfl⟩

end
end Verif.Compose.Many
