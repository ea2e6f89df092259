import Verif.Monitor.Full
import Verif.Sync.SemaphoreProps
import Verif.Sync.LatchProps
import Verif.Sync.WaitGroupProps
import Verif.Sync.BarrierProps
import Verif.Chan.ChanProps

/-!
# The library's monitors over the real mutex

`co_counting_semaphore` (co_counting_semaphore.h:18), `co_latch` (co_latch.h:17), `co_wait_group` (co_wait_group.h:15), `co_barrier`
(co_barrier.h:26) and `co_chan` protect their data by a `co_mutex`. Their properties, proved with an ideal mutex, hold with every step
of `co_mutex` in the model: clauses about the trace and the data, what a coroutine may still wait for when nobody can go on, and
termination.
-/

namespace Verif.Monitor
section
variable {σ C K V E : Type} [DecidableEq C]

/-- There is no infinite execution without new calls from `f` on (spinning in `lock()` ends, see `FullInt`). (Concerns co_counting_semaphore.h:18, co_latch.h:17.) -/
def Full.Ends (o : Obj σ C K V E) (f : Full σ C K V) : Prop :=
  ¬ ∃ g : Nat → Full σ C K V, g 0 = f ∧ ∀ n, ∃ t e, (g n).step o (.run t true) = some (g (n + 1), e)

/-- No coroutine inside a call can make a step. (Concerns co_counting_semaphore.h:18, co_latch.h:17.) -/
def Full.Stuck (o : Obj σ C K V E) (f : Full σ C K V) : Prop := ∀ t b, f.step o (.run t b) = none

theorem full_terminates (o : Obj σ C K V E) (rem : K → Nat) (hr : Shrinks o rem) (s0 : σ) (as : List (FAct K))
    (f : Full σ C K V) (es : List (Ev K V E)) (h : runs (Full.step o) (Full.init s0) as = some (f, es)) : f.Ends o := by
  obtain ⟨_, bs, hb⟩ := Full.sim_init h
  obtain ⟨L, hn, hw⟩ := within_reach o s0 bs f.low es hb
  refine C22_real_mutex_terminates o s0 as f es h (abs_acc o rem hr L hn f.low.abs (abs_wf o s0 bs f.low es hb) ?_)
  intro u hu
  simp [Low.abs, hw u hu, thP]

theorem full_stuck {o : Obj σ C K V E} {s0 : σ} {as : List (FAct K)} {f : Full σ C K V} {es : List (Ev K V E)}
    (h : runs (Full.step o) (Full.init s0) as = some (f, es)) (hst : f.Stuck o) : ∀ t, f.low.step o (.run t) = none :=
  (C22_real_mutex_stuck o s0 f ⟨as, es, h⟩ hst).2.1

end

/-- C23, C24, C25 over the real mutex: the trace is one of a semaphore, permits are conserved, nobody waits while there is something to
wait for, and without new calls everything comes to rest. -/
theorem C24_semaphore_real_mutex (M d : Int) (hd : 0 ≤ d ∧ d ≤ M) (as : List (FAct Semaphore.Op))
    (f : Full Int Semaphore.Cv Semaphore.Op Bool) (es : Semaphore.Trace)
    (h : runs (Full.step (Semaphore.obj M)) (Full.init d) as = some (f, es)) :
    Semaphore.Correct M d es ∧
    (f.low.sh = d + Semaphore.given es - Semaphore.taken es ∧ 0 ≤ f.low.sh ∧ f.low.sh ≤ M) ∧
    (f.Stuck (Semaphore.obj M) → ∀ t, f.low.pc t = .idle ∨ (f.low.pc t = .pYield .empty .acquire ∧ f.low.sh = 0) ∨
      (∃ n, f.low.pc t = .pYield .full (.release n) ∧ f.low.sh = M)) ∧
    f.Ends (Semaphore.obj M) := by
  obtain ⟨_, bs, hb⟩ := Full.sim_init h
  obtain ⟨rem, hr⟩ := Semaphore.shrinks M
  refine ⟨Semaphore.C23_semaphore_correct M d hd bs _ es hb, Semaphore.C23_permits_conserved M d hd bs _ es hb, fun hst t => ?_,
    full_terminates _ rem hr d as f es h⟩
  by_cases ht : f.low.pc t = .idle
  · exact .inl ht
  · exact .inr (Semaphore.C24_no_stranded_permit M d hd bs _ es hb (full_stuck h hst) t ht)

/-- A semaphore without permits: 1 waits; 2 asks for the mutex while 1 holds it and is handed it by 1's `unlock()`; it puts a permit
back; 1 takes it. -/
example : (runs (Full.step (Semaphore.obj 2)) (Full.init 0) ([.call 1 .acquire] ++ List.replicate 5 (.run 1 true) ++
      [.call 2 (.release 0)] ++ List.replicate 6 (.run 2 true) ++ List.replicate 9 (.run 1 true) ++ List.replicate 13 (.run 2 true) ++
      List.replicate 14 (.run 1 true))).map (fun p => (p.2, p.1.low.sh)) =
    some ([.call 1 .acquire, .call 2 (.release 0), .lin (.gave 2), .ret 2 true, .lin (.took 1), .ret 1 true], 0) := by decide

/-- C26 over the real mutex. -/
theorem C26_latch_real_mutex (e : Int) (he : 0 ≤ e) (as : List (FAct Latch.Op)) (f : Full Int Unit Latch.Op Latch.Res)
    (es : Latch.Trace) (h : runs (Full.step Latch.obj) (Full.init e) as = some (f, es)) :
    Latch.Correct e es ∧ (∀ pre post t, es = pre ++ .lin (.passed t) :: post → Latch.counted pre = e) ∧
    (f.Stuck Latch.obj → ∀ t, f.low.pc t = .idle ∨ (f.low.pc t = .pYield () .wait ∧ 0 < f.low.sh)) ∧ f.Ends Latch.obj := by
  obtain ⟨_, bs, hb⟩ := Full.sim_init h
  obtain ⟨rem, hr⟩ := Latch.shrinks
  refine ⟨Latch.C26_latch_correct e he bs _ es hb,
    fun pre post t hes => Latch.C26_passes_only_at_zero e he bs _ es pre post t hb hes, fun hst t => ?_,
    full_terminates _ rem hr e as f es h⟩
  by_cases ht : f.low.pc t = .idle
  · exact .inl ht
  · exact .inr (Latch.C26_releases_everybody e he bs _ es hb (full_stuck h hst) t ht)

/-- A latch of 1: 1 waits, 2 counts down, 1 passes. -/
example : (runs (Full.step Latch.obj) (Full.init 1) ([.call 1 .wait] ++ List.replicate 14 (.run 1 true) ++ [.call 2 (.countDown 1)] ++
      List.replicate 15 (.run 2 true) ++ List.replicate 11 (.run 1 true))).map (fun p => (p.2, p.1.mx.owner)) =
    some ([.call 1 .wait, .call 2 (.countDown 1), .lin (.down 2 1), .ret 2 .done, .lin (.passed 1), .ret 1 .done], none) := by decide

/-- C27 over the real mutex. -/
theorem C27_wait_group_real_mutex (n : Nat) (as : List (FAct WaitGroup.Op)) (f : Full Nat Unit WaitGroup.Op WaitGroup.Res)
    (es : WaitGroup.Trace) (h : runs (Full.step (WaitGroup.obj n)) (Full.init 0) as = some (f, es)) :
    (∃ q, accepts (WaitGroup.acc n) WaitGroup.Q.init es = some q) ∧
    (∀ pre post t, es = pre ++ .lin (.passed t) :: post → n ≤ WaitGroup.dones pre) ∧
    (f.Stuck (WaitGroup.obj n) → ∀ t, f.low.pc t = .idle ∨ (f.low.pc t = .pYield () .wait ∧ WaitGroup.dones es < n)) ∧
    f.Ends (WaitGroup.obj n) := by
  obtain ⟨_, bs, hb⟩ := Full.sim_init h
  obtain ⟨rem, hr⟩ := WaitGroup.shrinks n
  have h1 := WaitGroup.C27_waits_for_all n bs _ es hb
  refine ⟨h1.1, h1.2, fun hst t => ?_, full_terminates _ rem hr 0 as f es h⟩
  by_cases ht : f.low.pc t = .idle
  · exact .inl ht
  · exact .inr (WaitGroup.C27_releases_everybody n bs _ es hb (full_stuck h hst) t ht)

/-- A wait group of 1: 1 waits, 2 is done, 1 passes. -/
example : (runs (Full.step (WaitGroup.obj 1)) (Full.init 0) ([.call 1 .wait] ++ List.replicate 14 (.run 1 true) ++ [.call 2 .done] ++
      List.replicate 15 (.run 2 true) ++ List.replicate 11 (.run 1 true))).map (fun p => (p.2, p.1.mx.owner)) =
    some ([.call 1 .wait, .call 2 .done, .lin (.fin 2), .ret 2 .ok, .lin (.passed 1), .ret 1 .ok], none) := by decide

/-- C28, C29 over the real mutex. -/
theorem C29_barrier_real_mutex (M : Int) (hM : 0 < M) (as : List (FAct Barrier.Op)) (f : Full Barrier.B Unit Barrier.Op Barrier.Res)
    (es : Barrier.Trace) (h : runs (Full.step (Barrier.obj M)) (Full.init (Barrier.B.init M)) as = some (f, es))
    (hcl : Barrier.Clients es) :
    Barrier.Correct M es ∧
    (∀ pre post t g, es = pre ++ .lin (.released t g) :: post → 0 ≤ g → Barrier.waitedIn g pre = M) ∧
    (f.Stuck (Barrier.obj M) → ∀ t, f.low.pc t = .idle ∨
      (f.low.pc t = .pYield () (.resume f.low.sh.gen) ∧ Barrier.waitedIn f.low.sh.gen es < M)) ∧
    f.Ends (Barrier.obj M) := by
  obtain ⟨_, bs, hb⟩ := Full.sim_init h
  obtain ⟨rem, hr⟩ := Barrier.shrinks M
  refine ⟨Barrier.C28_barrier_correct M hM bs _ es hb hcl,
    fun pre post t g hes hg => Barrier.C28_no_early_release M hM bs _ es pre post t g hb hcl hes hg, fun hst t => ?_,
    full_terminates _ rem hr _ as f es h⟩
  by_cases ht : f.low.pc t = .idle
  · exact .inl ht
  · exact .inr (Barrier.C29_blocked_only_in_open_phase M hM bs _ es hb hcl (full_stuck h hst) t ht)

/-- A barrier for 2: 1 waits in phase 0 until 2 has come, too. -/
example : (runs (Full.step (Barrier.obj 2)) (Full.init (Barrier.B.init 2)) ([.call 1 .arriveWait] ++ List.replicate 24 (.run 1 true) ++
      [.call 2 .arriveWait] ++ List.replicate 25 (.run 2 true) ++ List.replicate 11 (.run 1 true))).map (fun p => (p.2, p.1.low.sh.gen)) =
    some ([.call 1 .arriveWait, .lin (.arrived 1 0 1), .lin (.waited 1 0 1), .call 2 .arriveWait, .lin (.arrived 2 0 1),
      .lin (.waited 2 0 1), .lin (.released 2 0), .ret 2 .ok, .lin (.released 1 0), .ret 1 .ok], 1) := by decide

/-- C33, C34, C37 over the real mutex. -/
theorem C37_channel_real_mutex {α : Type} (kd : Chan.Kind) (as : List (FAct (Chan.Op α)))
    (f : Full (Chan.Ch α) Chan.Cv (Chan.Op α) (Chan.Res α)) (es : Chan.Trace α)
    (h : runs (Full.step (Chan.obj kd)) (Full.init Chan.Ch.init) as = some (f, es)) (hc : Chan.Client es) :
    Chan.Correct kd es ∧ Chan.gotVals es ++ f.low.sh.data = Chan.accVals es ∧
    (∀ n, kd = .fixed n → f.low.sh.data.length ≤ n) ∧
    (kd ≠ .sync → f.Stuck (Chan.obj kd) → ∀ t, f.low.pc t = .idle ∨
      ((f.low.pc t = .pYield .empty .popW ∨ f.low.pc t = .pYield .empty .nextW) ∧ f.low.sh = ⟨[], false⟩) ∨
      (∃ n v, kd = .fixed n ∧ f.low.pc t = .pYield .full (.pushW v) ∧ f.low.sh.data.length = n ∧ f.low.sh.closed = false)) ∧
    f.Ends (Chan.obj kd) := by
  obtain ⟨_, bs, hb⟩ := Full.sim_init h
  obtain ⟨rem, hr⟩ := Chan.shrinks (α := α) kd
  refine ⟨Chan.chan_correct bs _ es hb hc, Chan.C33_fifo_exactly_once bs _ es hb hc, (Chan.C34_capacity bs _ es hb hc).1,
    fun hk hst t => ?_, full_terminates _ rem hr _ as f es h⟩
  by_cases ht : f.low.pc t = .idle
  · exact .inl ht
  · exact .inr (Chan.C37_no_stranded_waiter hk bs _ es hb hc (full_stuck h hst) t ht)

/-- A channel of capacity 1 over the real mutex: 1 sends two values, the second has to wait; 2 has asked for the mutex meanwhile, is
handed it by 1's `unlock()`, receives the first value and wakes 1. -/
example : (runs (Full.step (Chan.obj (α := Nat) (.fixed 1))) (Full.init Chan.Ch.init) ([.call 1 (.push 10)] ++
      List.replicate 13 (.run 1 true) ++ [.call 1 (.push 20)] ++ List.replicate 5 (.run 1 true) ++ [.call 2 .pop] ++
      List.replicate 6 (.run 2 true) ++ List.replicate 9 (.run 1 true) ++ List.replicate 13 (.run 2 true) ++
      List.replicate 14 (.run 1 true))).map (fun p => (p.1.low.sh.data, p.1.mx.owner, p.2)) =
    some ([20], none, [.call 1 (.push 10), .lin (.accepted 1 10), .ret 1 (.pushed true), .call 1 (.push 20), .call 2 .pop,
      .lin (.got 2 10), .ret 2 (.popped (some 10)), .lin (.accepted 1 20), .ret 1 (.pushed true)]) := rfl

end Verif.Monitor
