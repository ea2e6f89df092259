import Verif.Sync.MutexOrder

/-!
# Properties of co_mutex (C02 – C08)

`step false` is the model with clients that never call `lock()` while holding the mutex.
-/

namespace Verif.Mutex
open LockSpec

/-- A contended execution used as the non-trivial case of the theorems below: 1 holds the mutex,
2 and 3 run out of spin time, queue and sleep, 1 releases. (Concerns co_mutex.cpp:17-108.) -/
def demo : List Act :=
  [.callTry 1, .run 1 false, .run 1 false, .run 1 false,
   .callLock 2, .run 2 false, .run 2 false, .run 2 false, .run 2 false, .run 2 true, .run 2 false,
   .run 2 false, .run 2 false,
   .callLock 3, .run 3 false, .run 3 true, .run 3 false, .run 3 false, .run 3 false]

/-- … and then 1 unlocks and 2 gets it. (Concerns co_mutex.cpp:17-108.) -/
def demo2 : List Act :=
  demo ++ [.callUnlock 1, .run 1 false, .run 1 false, .run 1 false, .run 2 false, .run 2 false,
    .run 2 false, .run 2 false]

/-- C02. Every trace is one of a correct lock: at most one coroutine is between a returned
`lock()`/true `try_lock()` and its `unlock()`. C03: and every `unlock()` throws exactly if its
caller was not the holder. -/
theorem C02_mutex_excludes (as : List Act) (s : St) (es : List Ev)
    (h : runs (step false) St.init as = some (s, es)) : Correct es := by
  obtain ⟨q, hq, _⟩ := runs_sim R step_sim as _ _ _ _ R_init h
  exact ⟨q, hq⟩

example : (runs (step false) St.init demo2).map Prod.snd =
    some [.acq 1, .unlockCall 1, .unlockRet 1 true, .acq 2] := by decide

/-- C02 on states: two clients never hold the mutex at once. -/
theorem C02_mutex_one_holder (s : St) (h : Reach (step false) St.init s) (t u : Tid)
    (ht : s.hold t = true) (hu : s.hold u = true) : t = u := by
  have hI := h.inv Inv inv_step inv_init
  have h1 := hI.owner_of_hold ht
  have h2 := hI.owner_of_hold hu
  simpa [h1] using h2

/-- C03. No step of an `unlock()` by a coroutine that does not hold the mutex changes the mutex,
the queue, anybody's sleep flag, or who holds it. -/
theorem C03_mutex_bad_unlock_changes_nothing (s : St) (h : Reach (step false) St.init s) (t : Tid)
    (hp : s.pc t = .ulAcq false ∨ s.pc t = .ulTest false) (b : Bool) (s' : St) (es : List Ev)
    (hs : step false s (.run t b) = some (s', es)) :
    s'.owner = s.owner ∧ s'.queue = s.queue ∧ s'.asleep = s.asleep ∧ s'.hold = s.hold ∧
      (s.pc t = .ulTest false → s'.pc t = .ulRet false) := by
  have hI := h.inv Inv inv_step inv_init
  have hl := hI.loc t
  simp only [step, runStep] at hs
  rcases hp with hp | hp <;> simp only [Loc, hp, Bool.false_eq_true, false_iff] at hl <;>
    simp only [hp, St.acquire, St.goto, if_neg hl.2.1] at hs
  · split at hs <;> cases hs
    simp [hp]
  · cases hs
    simp

example : ∃ s es, runs (step false) St.init (demo ++ [.callUnlock 3]) = none ∧
    runs (step false) St.init (demo ++ [.callUnlock 4]) = some (s, es) ∧
    s.pc 4 = .ulAcq false := ⟨_, _, by decide, rfl, rfl⟩

/-- C03, the caller's side: take any `unlock()` call of `t` in an execution and its outcome. It returns
normally if `t` was inside the critical section when it called and throws if not. -/
theorem C03_mutex_unlock_checked (as : List Act) (s : St) (t : Tid) (ok : Bool) (a b c : List Ev)
    (h : runs (step false) St.init as =
      some (s, a ++ .unlockCall t :: b ++ .unlockRet t ok :: c))
    (h1 : .unlockCall t ∉ b) (h2 : ∀ ok, .unlockRet t ok ∉ b) : ok = inside t a :=
  (C02_mutex_excludes as s _ h).unlock_outcome h1 h2

example : ∃ s, runs (step false) St.init (demo ++ [.callUnlock 4, .callUnlock 1, .run 4 false,
    .run 4 false, .run 4 false, .run 1 false, .run 1 false, .run 1 false]) =
    some (s, [.acq 1] ++ .unlockCall 4 :: [.unlockCall 1] ++ .unlockRet 4 false ::
      [.unlockRet 1 true]) := ⟨_, rfl⟩

/-- C04. Acquisitions happen in queue order: let `t` be queued with the coroutines `ahead` before it
(`granted s` is the coroutine, if any, that already owns the mutex but whose call has not
returned). Whatever happens next, the coroutines that acquire the mutex are, in this order,
`granted s`, `ahead`, `t` — as far as the execution goes. Nobody overtakes. -/
theorem C04_mutex_fifo (s : St) (h : Reach (step false) St.init s) (t : Tid)
    (ahead behind : List Tid) (hq : s.queue = ahead ++ t :: behind) (as : List Act) (s' : St)
    (es : List Ev) (hr : runs (step false) s as = some (s', es)) :
    acqs es <+: granted s ++ ahead ++ [t] ∨ granted s ++ ahead ++ [t] <+: acqs es := by
  have hI := h.inv Inv inv_step inv_init
  obtain ⟨new, hn⟩ := order_runs as s s' es hI hr
  have h1 : acqs es <+: acqs es ++ expected s' := List.prefix_append _ _
  have h2 : granted s ++ ahead ++ [t] <+: acqs es ++ expected s' := by
    rw [hn, expected, hq]
    exact ⟨behind ++ new, by simp⟩
  exact List.prefix_or_prefix_of_prefix h1 h2

example : ∃ s es, runs (step false) St.init demo = some (s, es) ∧ s.queue = [2] ++ 3 :: [] :=
  ⟨_, _, rfl, rfl⟩

/-- C04, exact count: take a coroutine `t` that has just queued itself (it still has the internal
spinlock) with `k` coroutines ahead. When its `lock()` is about to return, exactly `k + 1`
successful `unlock()`s have returned since. -/
theorem C04_mutex_release_count (s : St) (h : Reach (step false) St.init s) (t : Tid)
    (ahead : List Tid) (hq : s.queue = ahead ++ [t]) (hp : s.pc t = .lkLoop) (as : List Act)
    (s' : St) (es : List Ev) (hr : runs (step false) s as = some (s', es)) (hna : .acq t ∉ es)
    (hp' : s'.pc t = .lkRet) : unlocks es = ahead.length + 1 := by
  have hI := h.inv Inv inv_step inv_init
  have hI' : Inv s' := runs_inv Inv inv_step as s s' es hI hr
  have hrel := release_runs as t s s' es hI hr (by simp [hp, Pc.queued]) (by simp [hp', Pc.queued])
    hna
  have hs : s.spin = some t := (hI.spin t).1 (by simp [hp, Pc.spin])
  have hs' : s'.spin = some t := (hI'.spin t).1 (by simp [hp', Pc.spin])
  have hnin : t ∉ s'.queue := by
    have := hI'.loc t
    simp only [Loc, hp'] at this
    exact this.2.2.1
  have hmem : t ∈ s.queue := by simp [hq]
  have hta : t ∉ ahead := by
    have := hI.nodup
    rw [hq] at this
    grind
  have hidx : s.queue.idxOf t = ahead.length := by
    rw [hq, List.idxOf_append, if_neg hta]
    simp
  simp only [waitFor, hmem, if_true, hidx, hnin, if_false, releasing, hs, hs', hp, hp'] at hrel
  simp at hrel
  omega

/-- 3 queues behind 2 while 1 holds the mutex; it gets it after two releases. -/
example : ∃ s es s' es', runs (step false) St.init (demo.take 17) = some (s, es) ∧
    s.queue = [2] ++ [3] ∧ s.pc 3 = .lkLoop ∧
    runs (step false) s ((demo2.drop 17) ++ [.callUnlock 2, .run 2 false, .run 2 false, .run 2 false,
      .run 3 false, .run 3 false, .run 3 false]) = some (s', es') ∧ s'.pc 3 = .lkRet ∧
    unlocks es' = 2 := ⟨_, _, _, _, rfl, rfl, rfl, rfl, rfl, rfl⟩

/-- C05. A sleeping coroutine is inside `lock()`, still queued, and somebody else owns the mutex; a
queued coroutine that was handed the mutex is awake; a free mutex has nobody queued or asleep. -/
theorem C05_mutex_no_lost_wakeup (s : St) (h : Reach (step false) St.init s) :
    (∀ t, s.asleep t = true → t ∈ s.queue ∧ ∃ u, u ≠ t ∧ s.owner = some u) ∧
    (∀ t, s.owner = some t → s.asleep t = false ∧ t ∉ s.queue) ∧
    (s.owner = none → s.queue = [] ∧ ∀ t, s.asleep t = false) := by
  have hI := h.inv Inv inv_step inv_init
  have hsl : ∀ t, s.asleep t = true → t ∈ s.queue ∧ s.owner ≠ some t := by
    intro t ht
    have := hI.loc t
    simp only [Loc] at this
    grind
  refine ⟨fun t ht => ⟨(hsl t ht).1, ?_⟩, fun t ht => ⟨?_, ?_⟩, fun hn => ⟨hI.free hn, fun t => ?_⟩⟩
  · cases ho : s.owner with
    | none => have := hI.free ho; have := hsl t ht; grind
    | some u => exact ⟨u, by have := hsl t ht; grind, rfl⟩
  · have := hsl t; grind
  · have := hI.loc t
    simp only [Loc] at this
    grind
  · have := hI.free hn; have := hsl t; grind

example : ∃ s es, runs (step false) St.init demo = some (s, es) ∧ s.asleep 2 = true ∧
    s.asleep 3 = true ∧ s.owner = some 1 := ⟨_, _, rfl, rfl, rfl, rfl⟩

/-- C06, no deadlock: if no coroutine inside a call can make a step, then everybody inside a call is
asleep behind a client that holds the mutex (and is not inside a call). -/
theorem C06_mutex_stuck_only_behind_holder (s : St) (h : Reach (step false) St.init s)
    (hstuck : ∀ t b, step false s (.run t b) = none) (t : Tid) (ht : s.pc t ≠ .out) :
    t ∈ s.queue ∧ ∃ u, s.owner = some u ∧ s.hold u = true ∧ s.pc u = .out := by
  have := stuck s (h.inv Inv inv_step inv_init) hstuck t ht
  exact this.2

/-- C06: so if no client holds the mutex, some coroutine inside a call can make a step. -/
theorem C06_mutex_no_deadlock (s : St) (h : Reach (step false) St.init s)
    (hfree : ∀ u, s.hold u = false) (t : Tid) (ht : s.pc t ≠ .out) :
    ∃ u b s' es, step false s (.run u b) = some (s', es) := by
  apply Classical.byContradiction
  intro hno
  have hstuck : ∀ u b, step false s (.run u b) = none := by
    intro u b
    cases hc : step false s (.run u b) with
    | none => rfl
    | some p => exact absurd ⟨u, b, p.1, p.2, hc⟩ hno
  obtain ⟨_, u, _, hu, _⟩ := C06_mutex_stuck_only_behind_holder s h hstuck t ht
  simp [hfree u] at hu

example : ∃ s es, runs (step false) St.init (demo ++ [.callUnlock 1]) = some (s, es) ∧
    (∀ u, s.hold u = false) ∧ s.pc 2 ≠ .out := by
  refine ⟨_, _, rfl, fun u => ?_, by decide⟩
  show upd (upd (fun _ => false) 1 true) 1 false u = false
  grind

/-- C06, termination: without new calls, the coroutines `L` that are inside calls make at most
`10 · |L|` steps, plus three for every time a spinning coroutine looks at the clock and its 10 ms
are not over yet. So pending calls finish or sleep behind a holder. -/
theorem C06_mutex_calls_terminate (s : St) (h : Reach (step false) St.init s) (L : List Tid)
    (hn : L.Nodup) (hL : ∀ u, u ∉ L → s.pc u = .out) (c : Sched) (s' : St) (es : List Ev)
    (hr : runs (step false) s c.acts = some (s', es)) :
    c.length ≤ 10 * L.length + 3 * c.spins := by
  have hb := bounded L hn c s s' es (h.inv Inv inv_step inv_init) hL hr
  have : sumOver L (rank s) ≤ 10 * L.length := by
    have := sumOver_le (L := L) (f := rank s) (g := fun _ => 10) (fun u _ => rank_le s u)
    rw [sumOver_const] at this
    omega
  omega

example : ∃ s es s' es', runs (step false) St.init (demo ++ [.callUnlock 1]) = some (s, es) ∧
    runs (step false) s (Sched.acts [(1, true), (1, true), (1, true), (2, true), (2, true),
      (2, true), (2, true)]) = some (s', es') := ⟨_, _, _, _, rfl, rfl⟩

/-- C07. When `try_lock()` inspects the mutex it succeeds exactly if nobody owns it, and then the
caller owns it; a failing `try_lock()` changes neither the owner nor the queue nor a sleep flag. -/
theorem C07_mutex_try_lock_exact (s : St) (t : Tid) (hp : s.pc t = .tlTest) (b : Bool) (s' : St)
    (es : List Ev) (hs : step false s (.run t b) = some (s', es)) :
    (s'.pc t = .tlRet true ↔ s.owner = none) ∧
    (s.owner = none → s'.owner = some t) ∧
    (s'.pc t ≠ .tlRet true → s'.pc t = .tlRet false ∧ s'.owner = s.owner) ∧
    s'.queue = s.queue ∧ s'.asleep = s.asleep := by
  simp only [step, runStep, hp, St.goto] at hs
  split at hs <;> cases hs <;> simp_all

/-- C07: a coroutine inside `try_lock()` is never asleep or queued, and can go on whenever the
internal spinlock is free or its own: it needs at most three steps of its own to return. -/
theorem C07_mutex_try_lock_never_sleeps (s : St) (h : Reach (step false) St.init s) (t : Tid)
    (hp : s.pc t = .tlAcq ∨ s.pc t = .tlTest ∨ ∃ b, s.pc t = .tlRet b) :
    s.asleep t = false ∧ t ∉ s.queue ∧
    (s.spin = none ∨ s.spin = some t → ∀ b, ∃ s' es, step false s (.run t b) = some (s', es)) ∧
    rank s t ≤ 3 := by
  have hI := h.inv Inv inv_step inv_init
  have hl := hI.loc t
  have hsp := hI.spin t
  rcases hp with hp | hp | ⟨bb, hp⟩
  · simp only [Loc, hp] at hl
    refine ⟨hl.2.2, hl.2.1, fun hs b => ?_, by simp [rank, hp]⟩
    simp only [hp, Pc.spin] at hsp
    have : s.spin = none := by grind
    simp [step, runStep, hp, St.acquire, this]
  · simp only [Loc, hp] at hl
    refine ⟨hl.2.2, hl.2.1, fun hs b => ?_, by simp [rank, hp]⟩
    simp only [step, runStep, hp]
    split <;> exact ⟨_, _, rfl⟩
  · refine ⟨?_, ?_, fun hs b => ⟨_, _, by simp only [step, runStep, hp]; rfl⟩, by simp [rank, hp]⟩ <;>
      (cases bb <;> simp only [Loc, hp] at hl <;> grind)

example : ∃ s es, runs (step false) St.init (demo ++ [.callTry 5, .run 5 false]) = some (s, es) ∧
    s.pc 5 = .tlTest ∧ s.owner = some 1 := ⟨_, _, rfl, rfl, rfl⟩

/-- How many more `lock()`/`try_lock()` calls of `t` succeeded than `unlock()` calls it made. (Concerns co_mutex.cpp:17-108.) -/
def depth (t : Tid) (es : List Ev) : Int :=
  (es.countP (· = .acq t) : Int) - es.countP (· = .unlockCall t)

/-- 1 holds the mutex, 2 and 3 are queued, 1 calls `lock()` again and then `unlock()` once. (Concerns co_mutex.cpp:17-108.) -/
def relockDemo : List Act :=
  demo ++ [.callLock 1, .run 1 false, .run 1 true, .run 1 false, .run 1 false, .run 1 false,
    .callUnlock 1, .run 1 false, .run 1 false, .run 1 false,
    .run 2 false, .run 2 false, .run 2 false, .run 2 false]

/-- C08 is false. A coroutine that calls `lock()` on a mutex it already holds queues itself and, since
it is the owner, returns at once. Its `unlock()` then hands the mutex to whoever is first in the
queue: with a waiter queued before, both are between `lock()` and the matching `unlock()`. -/
theorem C08_relock_breaks_exclusion :
    ∃ as s es, runs (step true) St.init as = some (s, es) ∧
      ∃ t u, t ≠ u ∧ depth t es = 1 ∧ depth u es = 1 ∧ s.pc t = .out ∧ s.pc u = .out :=
  ⟨relockDemo, _, _, rfl, 1, 2, by decide, rfl, rfl, rfl, rfl⟩

/-- C08, second failure: the entry the re-lock left in the queue is later handed the mutex although
that coroutine is not inside `lock()` any more. Nobody holds the mutex, nobody is inside a call, and
yet it is owned: every later `lock()` waits for ever. -/
theorem C08_relock_loses_the_mutex :
    ∃ as s es, runs (step true) St.init as = some (s, es) ∧
      (∀ t, s.pc t = .out) ∧ (∀ t, s.hold t = false) ∧ s.owner = some 1 := by
  refine ⟨relockDemo ++ [.callUnlock 1, .run 1 false, .run 1 false, .run 1 false,
    .callUnlock 2, .run 2 false, .run 2 false, .run 2 false,
    .run 3 false, .run 3 false, .run 3 false, .run 3 false,
    .callUnlock 3, .run 3 false, .run 3 false, .run 3 false], _, _, rfl, fun t => ?_, fun t => ?_,
    rfl⟩
  · by_cases h1 : t = 1
    · subst h1; rfl
    · by_cases h2 : t = 2
      · subst h2; rfl
      · by_cases h3 : t = 3
        · subst h3; rfl
        · simp only [St.init, St.goto, upd, h1, h2, h3, if_false]
  · by_cases h1 : t = 1
    · subst h1; rfl
    · by_cases h2 : t = 2
      · subst h2; rfl
      · by_cases h3 : t = 3
        · subst h3; rfl
        · simp only [St.init, St.goto, upd, h1, h2, h3, if_false, if_true]

theorem step_true_false (s : St) (a : Act) (h : ∀ t, a = .callLock t → s.hold t = false) :
    step true s a = step false s a := by
  cases a <;> simp [step]
  rename_i t
  simp [h t rfl]

/-- C08, what does hold: a re-lock is the only way to break the lock. If a trace of the unrestricted
client is not one of a correct lock, some coroutine called `lock()` while holding the mutex. -/
theorem C08_only_relock_breaks_partial (as : List Act) (s : St) (es : List Ev)
    (h : runs (step true) St.init as = some (s, es)) (hbad : ¬ Correct es) :
    ∃ pre t post s1 e1, as = pre ++ .callLock t :: post ∧
      runs (step true) St.init pre = some (s1, e1) ∧ s1.hold t = true := by
  have key : ∀ (as : List Act) (s0 s : St) (es : List Ev),
      runs (step true) s0 as = some (s, es) →
      (∃ pre t post s1 e1, as = pre ++ .callLock t :: post ∧
        runs (step true) s0 pre = some (s1, e1) ∧ s1.hold t = true) ∨
      runs (step false) s0 as = some (s, es) := by
    intro as
    induction as with
    | nil => intro s0 s es h; exact Or.inr h
    | cons a as ih =>
      intro s0 s es h
      by_cases hc : ∃ t, a = .callLock t ∧ s0.hold t = true
      · obtain ⟨t, rfl, ht⟩ := hc
        exact Or.inl ⟨[], t, as, s0, [], rfl, rfl, ht⟩
      · obtain ⟨s1, e1, e2, h1, h2, rfl⟩ := runs_cons h
        have h1' : step false s0 a = some (s1, e1) := by
          rw [← step_true_false s0 a (by grind)]; exact h1
        rcases ih s1 s e2 h2 with ⟨pre, t, post, s2, e3, rfl, hp, ht⟩ | hr
        · refine Or.inl ⟨a :: pre, t, post, s2, e1 ++ e3, rfl, ?_, ht⟩
          simp only [runs, h1, hp]
        · refine Or.inr ?_
          simp only [runs, h1', hr]
  rcases key as St.init s es h with hres | hres
  · exact hres
  · exact absurd (C02_mutex_excludes as s es hres) hbad

end Verif.Mutex
