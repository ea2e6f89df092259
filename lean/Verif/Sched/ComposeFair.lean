import Verif.Sched.ComposeManyProps

/-! # Fair executions: everything that can happen happens (C104)

C103 says what holds when all threads are idle. Here: with finitely many calls, and if processor time is used, they come to rest. -/

namespace Verif.Compose.Many
variable {S A E : Type}

/-- An infinite execution from the beginning: the steps, their events, the states. (Concerns co_manager.cpp:266-491, co_env.cpp:241-612.) -/
structure Run (o : Obj S A E) (R n : Nat) (s0 : S) (as : Nat → Act A) (es : Nat → List (Ev E)) (g : Nat → St S) : Prop where
  init : g 0 = St.init s0
  steps : ∀ i, step o R n (g i) (as i) = some (g (i + 1), es i)

/-- What has happened before step `i`. (Concerns co_manager.cpp:266-491, co_env.cpp:241-612.) -/
def hist (es : Nat → List (Ev E)) (i : Nat) : List (Ev E) := (List.range i).flatMap es

/-- Step `i` is a pick of thread `e` that gives the processor to `c`. (Concerns co_manager.cpp:266-491, co_env.cpp:241-612.) -/
def Picks (es : Nat → List (Ev E)) (i e c : Nat) : Prop := es i = [.env e (.pick (some c))]

/-- Fairness.
- `crew`: finitely many coroutines get processor time.
- `turn`: for a coroutine that stays inside a call for ever there is, again and again, a moment at which the thread it belongs to looks for
  somebody to run while nobody is in the middle of adding it, of waking it or of changing its priority. (Threads go on, migrations and
  wake-ups are completed.)
- `use`: a coroutine that gets processor time again and again makes steps in the object again and again. (A time slice suffices for a
  step; no coroutine outside takes the processor for ever.) (Concerns co_manager.cpp:266-491, co_env.cpp:241-612.) -/
structure Fair (o : Obj S A E) (n : Nat) (as : Nat → Act A) (es : Nat → List (Ev E)) (g : Nat → St S) : Prop where
  crew : ∃ l : List Nat, ∀ i e c, Picks es i e c → c ∈ l
  turn : ∀ t i, (∀ j, i ≤ j → o.busy (g j).obj t = true) →
    ∃ j, i ≤ j ∧ ∃ e < n, as j = .env e .pick ∧ Settled (Sched.view (envs (proj e (hist es j)))) t
  use : ∀ c, (∀ i, ∃ j, i ≤ j ∧ ∃ e, Picks es j e c) → ∀ i, ∃ j, i ≤ j ∧ ∃ a, as j = .obj a ∧ o.who a = c

theorem Run.prefix {o : Obj S A E} {R n : Nat} {s0 : S} {as : Nat → Act A} {es : Nat → List (Ev E)} {g : Nat → St S}
    (h : Run o R n s0 as es g) (i : Nat) : runs (step o R n) (St.init s0) ((List.range i).map as) = some (g i, hist es i) := by
  induction i with
  | zero => rw [← h.init]; rfl
  | succ i ih =>
    rw [List.range_succ, List.map_append]
    have h1 : runs (step o R n) (g i) [as i] = some (g (i + 1), es i) := by simp [runs, h.steps i]
    have := runs_append ih h1
    rw [hist, List.range_succ, List.flatMap_append]
    simpa [hist] using this

theorem often {P : Nat → Nat → Prop} : ∀ l : List Nat, (∀ i, ∃ j, i ≤ j ∧ ∃ c ∈ l, P j c) → ∃ c ∈ l, ∀ i, ∃ j, i ≤ j ∧ P j c
  | [], h => by obtain ⟨_, _, c, hc, _⟩ := h 0; simp at hc
  | d :: l, h => by
    by_cases hd : ∀ i, ∃ j, i ≤ j ∧ P j d
    · exact ⟨d, by simp, hd⟩
    · simp only [not_forall, not_exists, not_and] at hd
      obtain ⟨i0, hi0⟩ := hd
      obtain ⟨c, hc, h1⟩ := often l fun i => by
        obtain ⟨j, h1, c, h2, h3⟩ := h (max i i0)
        refine ⟨j, by omega, c, ?_, h3⟩
        rcases List.mem_cons.1 h2 with rfl | h2
        · exact absurd h3 (hi0 j (by omega))
        · exact h2
      exact ⟨c, by simp [hc], h1⟩

theorem pick_ev {o : Obj S A E} {R n : Nat} {s s' : St S} {e : Nat} {fs : List (Ev E)}
    (h : step o R n s (.env e .pick) = some (s', fs)) : e < n ∧ ∃ x, fs = [.env e (.pick x)] ∧
      Compose.step o R (s.at e) (.env .pick) = some (⟨s.obj, s'.env e⟩, [.env (.pick x)]) := by
  simp only [step] at h
  split at h
  · rename_i hg
    simp only [Option.map_eq_some_iff, Prod.mk.injEq] at h
    obtain ⟨r, hr, rfl, rfl⟩ := h
    have hr' := hr
    simp only [Sched.step] at hr'
    split at hr'
    · simp only [Option.some.injEq] at hr'
      refine ⟨hg.1, (s.env e).pick.2, by rw [← hr']; rfl, ?_⟩
      simp only [Compose.step, hg.2.1, if_true]
      rw [show (s.at e).env = s.env e from rfl, hr, ← hr']
      simp [St.at]
    · cases hr'
  · cases h

theorem obj_same {o : Obj S A E} {R n : Nat} {s0 : S} {as : Nat → Act A} {es : Nat → List (Ev E)} {g : Nat → St S}
    (h : Run o R n s0 as es g) {N : Nat} (hN : ∀ m, N ≤ m → ∀ a, as m ≠ .obj a) (k : Nat) : (g (N + k)).obj = (g N).obj := by
  induction k with
  | zero => rfl
  | succ k ih =>
    rw [← ih]
    have hs := h.steps (N + k)
    cases ha : as (N + k) with
    | obj a => exact absurd ha (hN _ (by omega) a)
    | env e a =>
      rw [ha] at hs
      simp only [step] at hs
      split at hs
      · simp only [Option.map_eq_some_iff, Prod.mk.injEq] at hs
        obtain ⟨r, -, h1, -⟩ := hs
        rw [show N + (k + 1) = N + k + 1 from rfl, ← h1]
      · cases hs

/-- **C104, coming to rest**: in a fair execution in which finitely many steps are made in the object, from some point on nobody inside a
call could make one: whoever could go on has gone on. -/
theorem C104_comes_to_rest {o : Obj S A E} {I : S → Prop} {R n : Nat} (L : Laws o I) {s0 : S} (h0 : I s0) {as : Nat → Act A}
    {es : Nat → List (Ev E)} {g : Nat → St S} (h : Run o R n s0 as es g) (hf : Fair o n as es g)
    (hfin : ∃ N, ∀ m, N ≤ m → ∀ a, as m ≠ .obj a) :
    ∃ N, ∀ m, N ≤ m → ∀ a, o.inner a = true → o.step (g m).obj a = none := by
  obtain ⟨N, hN⟩ := hfin
  have hsame : ∀ m, N ≤ m → (g m).obj = (g N).obj := fun m hm => by
    have := obj_same h hN (m - N)
    rwa [show N + (m - N) = m by omega] at this
  refine ⟨N, fun m hm a ha => ?_⟩
  rw [hsame m hm]
  by_contra hne
  have hI : ∀ i, I (g i).obj := fun i =>
    runs_inv I (fun _ _ _ _ hI hs => L.inv hI hs) _ _ _ _ h0 (obj_runs _ _ _ _ (h.prefix i))
  have hb : o.busy (g N).obj (o.who a) = true := by
    cases hb : o.busy (g N).obj (o.who a) with
    | true => rfl
    | false => exact absurd (L.outside (hI N) hb ha) hne
  obtain ⟨l, hl⟩ := hf.crew
  have hinf : ∀ i, ∃ j, i ≤ j ∧ ∃ c ∈ l, ∃ e, Picks es j e c := by
    intro i
    obtain ⟨j, hj, e, he, haj, hset⟩ := hf.turn (o.who a) (max i N) fun j hj => by rw [hsame j (by omega)]; exact hb
    have hs := h.steps j
    rw [haj] at hs
    obtain ⟨-, x, hx, hp⟩ := pick_ev hs
    obtain ⟨bs, hbs⟩ := at_runs he _ _ _ _ (excl_init n s0) (h.prefix j)
    cases x with
    | none =>
      have := (C101_idle L h0 hbs hp rfl (o.who a) hset).1 (by rw [show ((g j).at e).obj = (g j).obj from rfl, hsame j (by omega)]; exact hb)
      have := this.2 a rfl
      rw [show ((g j).at e).obj = (g j).obj from rfl, hsame j (by omega)] at this
      exact absurd this hne
    | some c => exact ⟨j, by omega, c, hl j e c hx, e, hx⟩
  obtain ⟨c, -, hc⟩ := often l hinf
  obtain ⟨j, hj, a', ha', -⟩ := hf.use c hc N
  exact hN j hj a' ha'

/-! ## Objects -/

section
open Monitor
variable {σ C K V E : Type} [DecidableEq C]

/-- Finitely many calls, and from some point on the time to spin for a mutex is over (co_mutex.cpp:26-33: 10 ms). -/
def FewCalls (as : Nat → Act (FAct K)) : Prop :=
  ∃ N, ∀ m, N ≤ m → (∀ t k, as m ≠ .obj (.call t k)) ∧ ∀ t b, as m = .obj (.run t b) → b = true

theorem few_steps {o : Monitor.Obj σ C K V E} {R n : Nat} {s0 : σ} {as : Nat → Act (FAct K)} {es : Nat → List (Ev (Monitor.Ev K V E))}
    {g : Nat → St (Full σ C K V)} (h : Run (monitor o) R n (Full.init s0) as es g) (hf : FewCalls as)
    (hend : ∀ as f es, runs (Full.step o) (Full.init s0) as = some (f, es) → f.Ends o) : ∃ N, ∀ m, N ≤ m → ∀ a, as m ≠ .obj a := by
  obtain ⟨N, hN⟩ := hf
  have hF : Forever (monitor o) R n (g N) (fun i => as (N + i)) (fun i => g (N + i)) :=
    ⟨rfl, fun i => ⟨_, h.steps (N + i)⟩⟩
  have h1 : ¬ ∃ f : Nat → Full σ C K V, f 0 = (g N).obj ∧
      ∀ i, ∃ a e, (∃ t, a = FAct.run t true) ∧ (monitor o).step (f i) a = some (f (i + 1), e) := by
    rintro ⟨f, h1, h2⟩
    refine hend _ _ _ (obj_runs _ _ _ _ (h.prefix N)) ⟨f, h1, fun i => ?_⟩
    obtain ⟨a, e, ⟨t, rfl⟩, h3⟩ := h2 i
    exact ⟨t, e, h3⟩
  have h2 : ∀ i a, as (N + i) = .obj a → ∃ t, a = FAct.run t true := by
    intro i a ha
    have := hN (N + i) (by omega)
    cases a with
    | call t k => exact absurd ha (this.1 t k)
    | run t b => exact ⟨t, by rw [this.2 t b ha]⟩
  obtain ⟨M, hM⟩ := finitely_many h1 hF h2
  refine ⟨N + M, fun m hm a ha => ?_⟩
  exact hM (m - N) (by omega) a (by rw [show N + (m - N) = m by omega]; exact ha)

theorem monitor_rest {o : Monitor.Obj σ C K V E} {R n : Nat} {s0 : σ} {as : Nat → Act (FAct K)} {es : Nat → List (Ev (Monitor.Ev K V E))}
    {g : Nat → St (Full σ C K V)} (h : Run (monitor o) R n (Full.init s0) as es g) (hf : Fair (monitor o) n as es g) (hc : FewCalls as)
    (hend : ∀ as f es, runs (Full.step o) (Full.init s0) as = some (f, es) → f.Ends o) :
    ∃ N, ∀ m, N ≤ m → runs (Full.step o) (Full.init s0) (objActs ((List.range m).map as)) = some ((g m).obj, objs (hist es m)) ∧
      (g m).obj.Stuck o := by
  obtain ⟨N, hN⟩ := C104_comes_to_rest (monitor_laws o s0) (monitor_init o s0) h hf (few_steps h hc hend)
  exact ⟨N, fun m hm => ⟨obj_runs _ _ _ _ (h.prefix m), fun t b => hN m hm (.run t b) rfl⟩⟩

/-- **C104 for co_counting_semaphore**: in a fair execution with finitely many calls, from some point on every call of `acquire` has returned
or there is no permit, and every call of `release` has returned or there is no room. -/
theorem C104_semaphore {R n : Nat} {M d : Int} (hd : 0 ≤ d ∧ d ≤ M) {as : Nat → Act (FAct Semaphore.Op)} {es : Nat → List (Ev _)}
    {g : Nat → St (Full Int Semaphore.Cv Semaphore.Op Bool)} (h : Run (monitor (Semaphore.obj M)) R n (Full.init d) as es g)
    (hf : Fair (monitor (Semaphore.obj M)) n as es g) (hc : FewCalls as) :
    ∃ N, ∀ m, N ≤ m → ∀ t, (g m).obj.low.pc t = .idle ∨ ((g m).obj.low.pc t = .pYield .empty .acquire ∧ (g m).obj.low.sh = 0) ∨
      (∃ k, (g m).obj.low.pc t = .pYield .full (.release k) ∧ (g m).obj.low.sh = M) := by
  obtain ⟨N, hN⟩ := monitor_rest h hf hc fun as f es hr => (C24_semaphore_real_mutex M d hd as f es hr).2.2.2
  exact ⟨N, fun m hm => (C24_semaphore_real_mutex M d hd _ _ _ (hN m hm).1).2.2.1 (hN m hm).2⟩

/-- **C104 for co_latch**: from some point on everybody's call has returned, or the count is not 0. -/
theorem C104_latch {R n : Nat} {e : Int} (he : 0 ≤ e) {as : Nat → Act (FAct Latch.Op)} {es : Nat → List (Ev _)}
    {g : Nat → St (Full Int Unit Latch.Op Latch.Res)} (h : Run (monitor Latch.obj) R n (Full.init e) as es g)
    (hf : Fair (monitor Latch.obj) n as es g) (hc : FewCalls as) :
    ∃ N, ∀ m, N ≤ m → ∀ t, (g m).obj.low.pc t = .idle ∨ ((g m).obj.low.pc t = .pYield () .wait ∧ 0 < (g m).obj.low.sh) := by
  obtain ⟨N, hN⟩ := monitor_rest h hf hc fun as f es hr => (C26_latch_real_mutex e he as f es hr).2.2.2
  exact ⟨N, fun m hm => (C26_latch_real_mutex e he _ _ _ (hN m hm).1).2.2.1 (hN m hm).2⟩

/-- **C104 for co_wait_group**: from some point on everybody's call has returned, or fewer than `N` are done. -/
theorem C104_wait_group {R n : Nat} {W : Nat} {as : Nat → Act (FAct WaitGroup.Op)} {es : Nat → List (Ev _)}
    {g : Nat → St (Full Nat Unit WaitGroup.Op WaitGroup.Res)} (h : Run (monitor (WaitGroup.obj W)) R n (Full.init 0) as es g)
    (hf : Fair (monitor (WaitGroup.obj W)) n as es g) (hc : FewCalls as) :
    ∃ N, ∀ m, N ≤ m → ∀ t, (g m).obj.low.pc t = .idle ∨
      ((g m).obj.low.pc t = .pYield () .wait ∧ WaitGroup.dones (objs (hist es m)) < W) := by
  obtain ⟨N, hN⟩ := monitor_rest h hf hc fun as f es hr => (C27_wait_group_real_mutex W as f es hr).2.2.2
  exact ⟨N, fun m hm => (C27_wait_group_real_mutex W _ _ _ (hN m hm).1).2.2.1 (hN m hm).2⟩

/-- **C104 for co_barrier**: from some point on everybody's call has returned, or waits in a phase in which fewer than `M` have come. -/
theorem C104_barrier {R n : Nat} {M : Int} (hM : 0 < M) {as : Nat → Act (FAct Barrier.Op)} {es : Nat → List (Ev _)}
    {g : Nat → St (Full Barrier.B Unit Barrier.Op Barrier.Res)}
    (h : Run (monitor (Barrier.obj M)) R n (Full.init (Barrier.B.init M)) as es g)
    (hf : Fair (monitor (Barrier.obj M)) n as es g) (hc : FewCalls as) (hcl : ∀ m, Barrier.Clients (objs (hist es m))) :
    ∃ N, ∀ m, N ≤ m → ∀ t, (g m).obj.low.pc t = .idle ∨ ((g m).obj.low.pc t = .pYield () (.resume (g m).obj.low.sh.gen) ∧
      Barrier.waitedIn (g m).obj.low.sh.gen (objs (hist es m)) < M) := by
  obtain ⟨rem, hr⟩ := Barrier.shrinks M
  obtain ⟨N, hN⟩ := monitor_rest h hf hc fun as f es hrn => full_terminates _ rem hr _ as f es hrn
  exact ⟨N, fun m hm => (C29_barrier_real_mutex M hM _ _ _ (hN m hm).1 (hcl m)).2.2.1 (hN m hm).2⟩

/-- **C104 for co_chan** (with a buffer): from some point on everybody's call has returned, or receives and the channel is empty and open,
or sends and it is full and open. -/
theorem C104_channel {α : Type} {R n : Nat} {kd : Chan.Kind} (hk : kd ≠ .sync) {as : Nat → Act (FAct (Chan.Op α))}
    {es : Nat → List (Ev _)} {g : Nat → St (Full (Chan.Ch α) Chan.Cv (Chan.Op α) (Chan.Res α))}
    (h : Run (monitor (Chan.obj kd)) R n (Full.init Chan.Ch.init) as es g) (hf : Fair (monitor (Chan.obj kd)) n as es g)
    (hc : FewCalls as) (hcl : ∀ m, Chan.Client (objs (hist es m))) :
    ∃ N, ∀ m, N ≤ m → ∀ t, (g m).obj.low.pc t = .idle ∨
      (((g m).obj.low.pc t = .pYield .empty .popW ∨ (g m).obj.low.pc t = .pYield .empty .nextW) ∧ (g m).obj.low.sh = ⟨[], false⟩) ∨
      (∃ k v, kd = .fixed k ∧ (g m).obj.low.pc t = .pYield .full (.pushW v) ∧ (g m).obj.low.sh.data.length = k ∧
        (g m).obj.low.sh.closed = false) := by
  obtain ⟨rem, hr⟩ := Chan.shrinks (α := α) kd
  obtain ⟨N, hN⟩ := monitor_rest h hf hc fun as f es hrn => full_terminates _ rem hr _ as f es hrn
  exact ⟨N, fun m hm => (C37_channel_real_mutex kd _ _ _ (hN m hm).1 (hcl m)).2.2.2.1 hk (hN m hm).2⟩

end

/-- **C104 for co_mutex**: in a fair execution with finitely many calls, from some point on everybody's `lock()` and `unlock()` has
returned, or is queued behind a client that holds the mutex and does not unlock it any more. -/
theorem C104_mutex {R n : Nat} {as : Nat → Act Mutex.Act} {es : Nat → List (Ev LockSpec.Ev)} {g : Nat → St Mutex.St}
    (h : Run mutex R n Mutex.St.init as es g) (hf : Fair mutex n as es g)
    (hc : ∃ N, ∀ m, N ≤ m → ∀ a, as m = .obj a → ∃ t, a = .run t true) :
    ∃ N, ∀ m, N ≤ m → ∀ t, (g m).obj.pc t ≠ .out →
      t ∈ (g m).obj.queue ∧ ∃ u, (g m).obj.owner = some u ∧ (g m).obj.hold u = true ∧ (g m).obj.pc u = .out := by
  obtain ⟨N, hN⟩ := hc
  have hr := obj_runs _ _ _ _ (h.prefix N)
  have hF : Forever mutex R n (g N) (fun i => as (N + i)) (fun i => g (N + i)) := ⟨rfl, fun i => ⟨_, h.steps (N + i)⟩⟩
  have h1 : ¬ ∃ f : Nat → Mutex.St, f 0 = (g N).obj ∧
      ∀ i, ∃ a e, (∃ t, a = Mutex.Act.run t true) ∧ mutex.step (f i) a = some (f (i + 1), e) := by
    rintro ⟨f, h1, h2⟩
    let l := ((objActs ((List.range N).map as)).map mutex.who).dedup
    have hl : ∀ u, u ∉ l → (g N).obj.pc u = .out := by
      intro u hu
      have := absent mutex_laws u _ _ _ _ mutex_init hr fun a ha he => hu (by
        simp only [l, List.mem_dedup, List.mem_map]; exact ⟨a, ha, he⟩)
      simpa [mutex, St.init, Mutex.St.init] using this
    have h3 : ∀ k, ∃ c : Mutex.Sched, c.length = k ∧ c.spins = 0 ∧ ∃ e, runs (Mutex.step false) (g N).obj c.acts = some (f k, e) := by
      intro k
      induction k with
      | zero => exact ⟨[], rfl, rfl, [], by rw [← h1]; rfl⟩
      | succ k ih =>
        obtain ⟨c, q1, q2, e, q3⟩ := ih
        obtain ⟨a, e', ⟨t, rfl⟩, q4⟩ := h2 k
        refine ⟨c ++ [(t, true)], by simp [q1], ?_, e ++ e', ?_⟩
        · simpa [Mutex.Sched.spins] using q2
        · have q5 : runs (Mutex.step false) (f k) [.run t true] = some (f (k + 1), e') := by
            have : Mutex.step false (f k) (.run t true) = some (f (k + 1), e') := q4
            simp [runs, this]
          have := runs_append q3 q5
          simpa [Mutex.Sched.acts] using this
    obtain ⟨c, q1, q2, e, q3⟩ := h3 (10 * l.length + 1)
    have := Mutex.C06_mutex_calls_terminate _ ⟨_, _, hr⟩ l (List.nodup_dedup _) hl c _ _ q3
    rw [q1, q2] at this
    omega
  obtain ⟨M, hM⟩ := finitely_many h1 hF fun i a ha => hN (N + i) (by omega) a ha
  obtain ⟨K, hK⟩ := C104_comes_to_rest mutex_laws mutex_init h hf ⟨N + M, fun m hm a ha =>
    hM (m - N) (by omega) a (by rw [show N + (m - N) = m by omega]; exact ha)⟩
  refine ⟨K, fun m hm t ht => ?_⟩
  exact Mutex.C06_mutex_stuck_only_behind_holder (g m).obj ⟨_, _, obj_runs _ _ _ _ (h.prefix m)⟩
    (fun t b => hK m hm (.run t b) rfl) t ht

/-! ## Pipelines -/

section
open Monitor Real
variable {α : Type} {it : Bool} {tid : Who → Tid} {inj : ∀ a b, tid a = tid b → a = b} {who : Nat → Option Who}

theorem pipe_rest (hwho : ∀ t w, who t = some w ↔ tid w = t) {R n : Nat} {l : List α} {kd : Pipe.Kind}
    {gs : List (Pipe.Stage α)} (hok : ∀ g ∈ gs, g.Ok) {as : Nat → Act (Who × Bool)} {es : Nat → List (Ev _)} {g : Nat → St (Real.Full α)}
    (h : Run (pipeline (Pipe.Pipe.ofList l kd gs) it tid inj who) R n (Sys.initF (start (Pipe.Pipe.ofList l kd gs)) fun _ => Chan.Ch.init)
      as es g) (hf : Fair (pipeline (Pipe.Pipe.ofList l kd gs) it tid inj who) n as es g)
    (hb : ∃ N, ∀ m, N ≤ m → ∀ w b, as m = .obj (w, b) → b = true) :
    ∃ N, ∀ m, N ≤ m → ∀ a, (g m).obj.step (fullM (chans (Pipe.Pipe.ofList l kd gs))) (prog (Pipe.Pipe.ofList l kd gs) it tid inj) a = none := by
  obtain ⟨N, hN⟩ := hb
  obtain ⟨M, hM⟩ := C103_pipeline_finite hok (h.prefix N) (bs := fun i => as (N + i)) (g := fun i => g (N + i))
    ⟨rfl, fun i => ⟨_, h.steps (N + i)⟩⟩ fun i w b hi => hN (N + i) (by omega) w b hi
  obtain ⟨K, hK⟩ := C104_comes_to_rest (program_laws (pipeJoin_laws _ it hwho) _ _) (program_init _ _) h hf ⟨N + M, fun m hm a ha =>
    hM (m - N) (by omega) a (by rw [show N + (m - N) = m by omega]; exact ha)⟩
  exact ⟨K, fun m hm a => hK m hm a rfl⟩

/-- **C104 for pipelines**: in every fair execution, on any number of threads, the consumer has received everything from some point on: the
value of the list functions for the items of the source. -/
theorem C104_pipeline (hwho : ∀ t w, who t = some w ↔ tid w = t) {R n : Nat} {l : List α} {kd : Pipe.Kind}
    {gs : List (Pipe.Stage α)} (hk : kd ≠ .fixed 0) (hok : ∀ g ∈ gs, g.Ok) (hnf : ∀ g ∈ gs, g.isFork = false)
    {as : Nat → Act (Who × Bool)} {es : Nat → List (Ev _)} {g : Nat → St (Real.Full α)}
    (h : Run (pipeline (Pipe.Pipe.ofList l kd gs) it tid inj who) R n (Sys.initF (start (Pipe.Pipe.ofList l kd gs)) fun _ => Chan.Ch.init)
      as es g) (hf : Fair (pipeline (Pipe.Pipe.ofList l kd gs) it tid inj who) n as es g)
    (hb : ∃ N, ∀ m, N ≤ m → ∀ w b, as m = .obj (w, b) → b = true) :
    ∃ N, ∀ m, N ≤ m → (g m).obj.ps .consumer = .consumer (gs.foldl (fun l g => g.fn l) l) true := by
  obtain ⟨N, hN⟩ := pipe_rest hwho hok h hf hb
  exact ⟨N, fun m hm => C97_delivered_in_the_end hk hnf (fun k f hg => hok _ hg) (obj_runs _ _ _ _ (h.prefix m)) (hN m hm)⟩

/-- **C104 for a `fork`**. -/
theorem C104_fork (hwho : ∀ t w, who t = some w ↔ tid w = t) {R n : Nat} {l : List α} {kd : Pipe.Kind} {k : Nat} {f : α → α}
    (hk : kd ≠ .fixed 0) (hn : 0 < k) {as : Nat → Act (Who × Bool)} {es : Nat → List (Ev _)} {g : Nat → St (Real.Full α)}
    (h : Run (pipeline (Pipe.Pipe.ofList l kd [.fork k f]) it tid inj who) R n
      (Sys.initF (start (Pipe.Pipe.ofList l kd [.fork k f])) fun _ => Chan.Ch.init) as es g)
    (hf : Fair (pipeline (Pipe.Pipe.ofList l kd [.fork k f]) it tid inj who) n as es g)
    (hb : ∃ N, ∀ m, N ≤ m → ∀ w b, as m = .obj (w, b) → b = true) :
    ∃ N, ∀ m, N ≤ m → ∃ Y, (g m).obj.ps .consumer = .consumer Y true ∧ Y.Perm (l.map f) := by
  obtain ⟨N, hN⟩ := pipe_rest hwho (by simpa [Pipe.Stage.Ok] using hn) h hf hb
  exact ⟨N, fun m hm => C97_fork_delivered_in_the_end hk hn (obj_runs _ _ _ _ (h.prefix m)) (hN m hm)⟩

end
/-! ## Concrete cases

Every execution after which all threads are idle can be continued fairly: the threads go on looking for somebody to run. -/

theorem unroll {St A E : Type} {f : St → A → Option (St × List E)} : ∀ (l : List A) (s s' : St) (es : List E),
    runs f s l = some (s', es) → ∃ (g : Nat → St) (x : Nat → List E), g 0 = s ∧ g l.length = s' ∧
      (∀ i (h : i < l.length), f (g i) l[i] = some (g (i + 1), x i)) ∧ (List.range l.length).flatMap x = es := by
  intro l
  induction l with
  | nil =>
    intro s s' es h
    simp only [runs, Option.some.injEq, Prod.mk.injEq] at h
    exact ⟨fun _ => s, fun _ => [], rfl, h.1, fun i h => by simp at h, by simpa using h.2⟩
  | cons a l ih =>
    intro s s' es h
    obtain ⟨s1, e1, e2, h1, h2, rfl⟩ := runs_cons h
    obtain ⟨g, x, q1, q2, q3, q4⟩ := ih _ _ _ h2
    refine ⟨fun i => match i with | 0 => s | i + 1 => g i, fun i => match i with | 0 => e1 | i + 1 => x i, rfl, by simpa using q2, ?_, ?_⟩
    · intro i hi
      cases i with
      | zero => simp only [List.getElem_cons_zero, q1]; exact h1
      | succ i => simp only [List.getElem_cons_succ]; exact q3 i (by simpa using hi)
    · rw [List.length_cons, List.range_succ_eq_map, List.flatMap_cons, List.flatMap_map, ← q4]

/-- The steps `l`, then one thread after the other looks for somebody to run. (Concerns co_manager.cpp:266-491, co_env.cpp:241-612.) -/
def andThen (n : Nat) (l : List (Act A)) (i : Nat) : Act A := if h : i < l.length then l[i] else .env (i % n) .pick

theorem settled_idle {w : Sched.View} {t : Nat} (h : Settled w t) (k : Nat) :
    Settled ((List.replicate k (Sched.Ev.pick none)).foldl Sched.note w) t := by
  induction k generalizing w with
  | zero => exact h
  | succ k ih => exact ih (w := Sched.note w (.pick none)) h

theorem fair_idle {o : Obj S A E} {R n : Nat} {s0 : S} {l : List (Act A)} {s : St S} {es : List (Ev E)} (h : Idle o R n s0 l s es)
    (hs : ∀ e < n, (s.env e).curr = none ∧ (s.env e).mu = none ∧ (s.env e).search = none) (hn : 0 < n) :
    ∃ x g, Run o R n s0 (andThen n l) x g ∧ Fair o n (andThen n l) x g ∧ ∀ i, l.length ≤ i → g i = s := by
  obtain ⟨g, x, q1, q2, q3, q4⟩ := unroll l _ _ _ h.run
  let g' : Nat → St S := fun i => if i ≤ l.length then g i else s
  let x' : Nat → List (Ev E) := fun i => if i < l.length then x i else [.env (i % n) (.pick none)]
  have hg : ∀ i, l.length ≤ i → g' i = s := by
    intro i hi
    by_cases h1 : i = l.length
    · subst h1; simp [g', q2]
    · have : ¬ i ≤ l.length := by omega
      simp [g', this]
  have hpick : ∀ e < n, step o R n s (.env e .pick) = some (s, [.env e (.pick none)]) := fun e he =>
    pick_same he (hs e he).1 (hs e he).2.1 (hs e he).2.2
  refine ⟨x', g', ⟨by simp [g', q1], fun i => ?_⟩, ⟨?_, ?_, ?_⟩, hg⟩
  · by_cases hi : i < l.length
    · have h1 := q3 i hi
      simp only [andThen, hi, dite_true, g', x', if_true, show i ≤ l.length by omega, show i + 1 ≤ l.length by omega]
      exact h1
    · rw [hg i (by omega), hg (i + 1) (by omega)]
      simp only [andThen, hi, dite_false, x', if_false]
      exact hpick _ (Nat.mod_lt _ hn)
  · refine ⟨(List.range l.length).flatMap fun i => (x i).filterMap fun v => match v with
      | .env _ (.pick (some c)) => some c
      | _ => none, fun i e c hp => ?_⟩
    by_cases hi : i < l.length
    · simp only [Picks, x', hi, if_true] at hp
      simp only [List.mem_flatMap, List.mem_range, List.mem_filterMap]
      exact ⟨i, hi, .env e (.pick (some c)), by rw [hp]; simp, rfl⟩
    · simp only [Picks, x', hi, if_false] at hp
      simp at hp
  · intro t i hb
    have hbs : o.busy s.obj t = true := by
      have := hb (max i l.length) (by omega)
      rwa [hg _ (by omega)] at this
    obtain ⟨e, he, hset⟩ := h.here t hbs
    refine ⟨n * (max i l.length) + e, ?_, e, he, ?_, ?_⟩
    · have : max i l.length ≤ n * max i l.length := Nat.le_mul_of_pos_left _ hn
      omega
    · have h1 : max i l.length ≤ n * max i l.length := Nat.le_mul_of_pos_left _ hn
      have h2 : ¬ n * max i l.length + e < l.length := by omega
      simp only [andThen, h2, dite_false, Nat.mul_add_mod, Nat.mod_eq_of_lt he]
    · have h1 : max i l.length ≤ n * max i l.length := Nat.le_mul_of_pos_left _ hn
      have key : ∀ k, ∃ m, envs (proj e (hist x' (l.length + k))) = envs (proj e es) ++ List.replicate m (.pick none) := by
        intro k
        induction k with
        | zero =>
          refine ⟨0, ?_⟩
          have : hist x' (l.length + 0) = es := by
            rw [← q4, hist, Nat.add_zero]
            simp only [List.flatMap_def]
            congr 1
            apply List.map_congr_left
            intro j hj
            simp [x', List.mem_range.1 hj]
          rw [this]; simp
        | succ k ih =>
          obtain ⟨m, hm⟩ := ih
          have hx : x' (l.length + k) = [.env ((l.length + k) % n) (.pick none)] := by simp [x']
          have hh : hist x' (l.length + (k + 1)) = hist x' (l.length + k) ++ x' (l.length + k) := by
            rw [← Nat.add_assoc, hist, List.range_succ, List.flatMap_append]; simp [hist]
          rw [hh, proj_append, envs_append, hm, hx]
          by_cases hc : (l.length + k) % n = e
          · refine ⟨m + 1, ?_⟩
            simp only [proj, hc, if_true, envs, List.append_assoc]
            rw [List.replicate_succ']
          · exact ⟨m, by simp [proj, hc, envs]⟩
      obtain ⟨m, hm⟩ := key (n * max i l.length + e - l.length)
      rw [show l.length + (n * max i l.length + e - l.length) = n * max i l.length + e by omega] at hm
      rw [hm, Sched.view_append]
      exact settled_idle hset m
  · intro c hc
    exfalso
    obtain ⟨j, hj, e, hp⟩ := hc l.length
    have : ¬ j < l.length := by omega
    simp only [Picks, x', this, if_false] at hp
    simp at hp

theorem andThen_late {n : Nat} {l : List (Act A)} {i : Nat} (h : l.length ≤ i) (a : A) : andThen n l i ≠ .obj a := by
  simp [andThen, show ¬ i < l.length by omega]

/-- Two threads that look for somebody to run. (Concerns co_manager.cpp:266-491, co_env.cpp:241-612.) -/
def idlePicks {A : Type} : List (Act A) := [.env 0 .pick, .env 1 .pick]

theorem fair_two {o : Obj S A E} {I : S → Prop} (L : Laws o I) {R : Nat} {s0 : S} (h0 : I s0) {as : List (Act A)}
    {s : St S} {es : List (Ev E)} (hr : runs (step o R 2) (St.init s0) as = some (s, es))
    (h1 : (s.env 0).curr = none ∧ (s.env 0).mu = none ∧ (s.env 0).search = none)
    (h2 : (s.env 1).curr = none ∧ (s.env 1).mu = none ∧ (s.env 1).search = none) (l : List Nat)
    (hl : ∀ a ∈ objActs as, o.who a ∈ l) (hb : ∀ t, o.busy s0 t = false)
    (hq : ∀ t ∈ l, o.busy s.obj t = true → ∃ e < 2, Settled (Sched.view (envs (proj e es))) t) :
    ∃ x g, Run o R 2 s0 (andThen 2 as) x g ∧ Fair o 2 (andThen 2 as) x g ∧ ∀ i, as.length ≤ i → g i = s := by
  have hs : ∀ e < 2, (s.env e).curr = none ∧ (s.env e).mu = none ∧ (s.env e).search = none := by
    intro e he
    match e, he with
    | 0, _ => exact h1
    | 1, _ => exact h2
  exact fair_idle (idle_of L h0 hr (fun e he => ⟨s, pick_same he (hs e he).1 (hs e he).2.1 (hs e he).2.2⟩) l hl hb hq) hs (by omega)

set_option maxRecDepth 40000

/-- Non-trivial case of `C104_mutex` (and of C104_comes_to_rest): 1 holds the mutex and waits for something else (`9`), 2 is queued. The
state does not change any more. -/
example : ∃ x g, Run mutex 7 2 Mutex.St.init (andThen 2 (demo ++ idlePicks)) x g ∧ Fair mutex 2 (andThen 2 (demo ++ idlePicks)) x g ∧
    ∃ s : St Mutex.St, (∀ i, (demo ++ idlePicks).length ≤ i → g i = s) ∧ s.obj.pc 2 ≠ .out ∧ s.obj.queue = [2] ∧ s.obj.owner = some 1 := by
  obtain ⟨x, g, h1, h2, h3⟩ := fair_two (as := demo ++ idlePicks) (R := 7) mutex_laws mutex_init rfl ⟨rfl, rfl, rfl⟩ ⟨rfl, rfl, rfl⟩ [1, 2]
    (by decide) (fun _ => rfl) (by decide)
  exact ⟨x, g, h1, h2, _, h3, by decide, rfl, rfl⟩

section
open Monitor
variable {σ C K V E : Type} [DecidableEq C]

theorem few_andThen {n : Nat} (l : List (Act (FAct K))) : FewCalls (andThen n l) :=
  ⟨l.length, fun m hm => ⟨fun t k => andThen_late hm _, fun t b h => absurd h (andThen_late hm _)⟩⟩

/-- Non-trivial case of `C104_semaphore`: 1 takes the only permit, 2 waits for it for ever. -/
example : ∃ x g, Run (monitor (Semaphore.obj 1)) 7 2 (Full.init 1) (andThen 2 (twoCalls _ .acquire .acquire 13 14 ++ idlePicks)) x g ∧
    Fair (monitor (Semaphore.obj 1)) 2 (andThen 2 (twoCalls _ .acquire .acquire 13 14 ++ idlePicks)) x g ∧
    FewCalls (andThen 2 (twoCalls _ Semaphore.Op.acquire .acquire 13 14 ++ idlePicks)) := by
  obtain ⟨x, g, h1, h2, -⟩ := fair_two (as := twoCalls _ .acquire .acquire 13 14 ++ idlePicks) (R := 7) (monitor_laws (Semaphore.obj 1) 1)
    (monitor_init _ _) rfl ⟨rfl, rfl, rfl⟩ ⟨rfl, rfl, rfl⟩ [1, 2] (by decide) (fun _ => rfl) (by decide)
  exact ⟨x, g, h1, h2, few_andThen _⟩

/-- Non-trivial case of `C104_latch`: 1 counts down from 2, 2 waits for ever. -/
example : ∃ x g, Run (monitor Latch.obj) 7 2 (Full.init 2) (andThen 2 (twoCalls _ (.countDown 1) .wait 10 14 ++ idlePicks)) x g ∧
    Fair (monitor Latch.obj) 2 (andThen 2 (twoCalls _ (.countDown 1) .wait 10 14 ++ idlePicks)) x g ∧
    FewCalls (andThen 2 (twoCalls _ (Latch.Op.countDown 1) .wait 10 14 ++ idlePicks)) := by
  obtain ⟨x, g, h1, h2, -⟩ := fair_two (as := twoCalls _ (.countDown 1) .wait 10 14 ++ idlePicks) (R := 7) (monitor_laws Latch.obj 2)
    (monitor_init _ _) rfl ⟨rfl, rfl, rfl⟩ ⟨rfl, rfl, rfl⟩ [1, 2] (by decide) (fun _ => rfl) (by decide)
  exact ⟨x, g, h1, h2, few_andThen _⟩

/-- Non-trivial case of `C104_wait_group`: one of two is done, 2 waits for ever. -/
example : ∃ x g, Run (monitor (WaitGroup.obj 2)) 7 2 (Full.init 0) (andThen 2 (twoCalls _ .done .wait 10 14 ++ idlePicks)) x g ∧
    Fair (monitor (WaitGroup.obj 2)) 2 (andThen 2 (twoCalls _ .done .wait 10 14 ++ idlePicks)) x g ∧
    FewCalls (andThen 2 (twoCalls _ WaitGroup.Op.done .wait 10 14 ++ idlePicks)) := by
  obtain ⟨x, g, h1, h2, -⟩ := fair_two (as := twoCalls _ .done .wait 10 14 ++ idlePicks) (R := 7) (monitor_laws (WaitGroup.obj 2) 0)
    (monitor_init _ _) rfl ⟨rfl, rfl, rfl⟩ ⟨rfl, rfl, rfl⟩ [1, 2] (by decide) (fun _ => rfl) (by decide)
  exact ⟨x, g, h1, h2, few_andThen _⟩

/-- Non-trivial case of `C104_barrier`: of three one comes and leaves, 2 waits for ever. -/
example : ∃ x g, Run (monitor (Barrier.obj 3)) 7 2 (Full.init (Barrier.B.init 3))
      (andThen 2 (twoCalls _ (.arrive 1) .arriveWait 10 24 ++ idlePicks)) x g ∧
    Fair (monitor (Barrier.obj 3)) 2 (andThen 2 (twoCalls _ (.arrive 1) .arriveWait 10 24 ++ idlePicks)) x g ∧
    FewCalls (andThen 2 (twoCalls _ (Barrier.Op.arrive 1) .arriveWait 10 24 ++ idlePicks)) := by
  obtain ⟨x, g, h1, h2, -⟩ := fair_two (as := twoCalls _ (.arrive 1) .arriveWait 10 24 ++ idlePicks) (R := 7)
    (monitor_laws (Barrier.obj 3) (Barrier.B.init 3)) (monitor_init _ _) rfl ⟨rfl, rfl, rfl⟩ ⟨rfl, rfl, rfl⟩ [1, 2] (by decide)
    (fun _ => rfl) (by decide)
  exact ⟨x, g, h1, h2, few_andThen _⟩

/-- 1 receives from an empty channel, 2 ends. (Concerns co_manager.cpp:266-491, co_env.cpp:241-612.) -/
def lonely : List (Act (FAct (Chan.Op Nat))) :=
  come 0 1 5 ++ come 1 2 5 ++ [.env 0 .pick, .env 1 .pick, .obj (.call 1 .pop)] ++ List.replicate 14 (.obj (.run 1 true)) ++
    [.env 1 (.finish 2)] ++ idlePicks

/-- Non-trivial case of `C104_channel`. -/
example : ∃ x g, Run (monitor (Chan.obj (α := Nat) (.fixed 1))) 7 2 (Full.init Chan.Ch.init) (andThen 2 lonely) x g ∧
    Fair (monitor (Chan.obj (α := Nat) (.fixed 1))) 2 (andThen 2 lonely) x g ∧ FewCalls (andThen 2 lonely) := by
  obtain ⟨x, g, h1, h2, -⟩ := fair_two (as := lonely) (R := 7) (monitor_laws (Chan.obj (α := Nat) (.fixed 1)) Chan.Ch.init)
    (monitor_init _ _) rfl ⟨rfl, rfl, rfl⟩ ⟨rfl, rfl, rfl⟩ [1] (by decide) (fun _ => rfl) (by decide)
  exact ⟨x, g, h1, h2, few_andThen _⟩

end

section
open Monitor Real

theorem fair_pipe (P : Pipe.Pipe Nat) {it : Bool} {R : Nat} {as : List (Act (Who × Bool))} {s : St (Real.Full Nat)} {es : List (Ev _)}
    (hr : runs (step (pipeline P it num num_inj whoNum) R 2) (St.init (begin P)) as = some (s, es))
    (h1 : (s.env 0).curr = none ∧ (s.env 0).mu = none ∧ (s.env 0).search = none)
    (h2 : (s.env 1).curr = none ∧ (s.env 1).mu = none ∧ (s.env 1).search = none)
    (hq : ∀ w ∈ crew P, ∃ e < 2, Settled (Sched.view (envs (proj e es))) (num w)) :
    ∃ x g, Run (pipeline P it num num_inj whoNum) R 2 (begin P) (andThen 2 as) x g ∧
      Fair (pipeline P it num num_inj whoNum) 2 (andThen 2 as) x g ∧ ∀ i, as.length ≤ i → g i = s := by
  have hs : ∀ e < 2, (s.env e).curr = none ∧ (s.env e).mu = none ∧ (s.env e).search = none := by
    intro e he
    match e, he with
    | 0, _ => exact h1
    | 1, _ => exact h2
  exact fair_idle (idle_pipe P hr (fun e he => ⟨s, pick_same he (hs e he).1 (hs e he).2.1 (hs e he).2.2⟩) hq) hs (by omega)

/-- Non-trivial case of `C104_pipeline`: [1, 2, 3] doubled and filtered (`sample`), by coroutines on two threads (`turns`). -/
example : ∃ x g, Run (pipeline (sample (.fixed 1)) true num num_inj whoNum) 7 2 (begin (sample (.fixed 1))) (andThen 2 (turns ++ idlePicks)) x g ∧
    Fair (pipeline (sample (.fixed 1)) true num num_inj whoNum) 2 (andThen 2 (turns ++ idlePicks)) x g ∧
    ∃ N, ∀ m, N ≤ m → (g m).obj.ps .consumer = .consumer [2, 6] true := by
  obtain ⟨x, g, h1, h2, h3⟩ := fair_pipe (as := turns ++ idlePicks) (R := 7) (it := true) (sample (.fixed 1)) rfl ⟨rfl, rfl, rfl⟩ ⟨rfl, rfl, rfl⟩
    (by decide)
  exact ⟨x, g, h1, h2, _, fun m hm => by rw [h3 m hm]; rfl⟩

/-- Non-trivial case of `C104_fork`: two workers on thread 1. -/
example : ∃ x g, Run (pipeline (Pipe.Pipe.ofList [1, 2] .unlimited [.fork 2 (2 * ·)]) true num num_inj whoNum) 7 2
      (begin (Pipe.Pipe.ofList [1, 2] .unlimited [.fork 2 (2 * ·)])) (andThen 2 (forkTurns ++ idlePicks)) x g ∧
    Fair (pipeline (Pipe.Pipe.ofList [1, 2] .unlimited [.fork 2 (2 * ·)]) true num num_inj whoNum) 2 (andThen 2 (forkTurns ++ idlePicks)) x g ∧
    ∃ N, ∀ m, N ≤ m → (g m).obj.ps .consumer = .consumer [2, 4] true := by
  obtain ⟨x, g, h1, h2, h3⟩ := fair_pipe (as := forkTurns ++ idlePicks) (R := 7) (it := true)
    (Pipe.Pipe.ofList [1, 2] .unlimited [.fork 2 (2 * ·)]) rfl ⟨rfl, rfl, rfl⟩ ⟨rfl, rfl, rfl⟩ (by decide)
  exact ⟨x, g, h1, h2, _, fun m hm => by rw [h3 m hm]; rfl⟩

end
end Verif.Compose.Many
