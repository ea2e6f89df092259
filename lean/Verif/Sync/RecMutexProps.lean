import Verif.Sync.RecMutexOrder

/-! # Properties of co_recursive_mutex (C09, C10) -/

namespace Verif.RecMutex
open LockSpec

/-- 1 locks twice; 2 and 3 run out of spin time, queue and sleep. (Concerns co_recursive_mutex.cpp:14-107.) -/
def demo : List Act :=
  [.callLock 1, .run 1 false, .run 1 false, .run 1 false,
   .callLock 2, .run 2 false, .run 2 false, .run 2 false, .run 2 false, .run 2 false, .run 2 true,
   .run 2 false, .run 2 false, .run 2 false,
   .callTry 1, .run 1 false, .run 1 false, .run 1 false,
   .callLock 3, .run 3 false, .run 3 false, .run 3 true, .run 3 false, .run 3 false, .run 3 false]

/-- … and 1 unlocks twice; 2 gets the mutex. (Concerns co_recursive_mutex.cpp:14-107.) -/
def demo2 : List Act :=
  demo ++ [.callUnlock 1, .run 1 false, .run 1 false, .run 1 false,
    .callUnlock 1, .run 1 false, .run 1 false, .run 1 false,
    .run 2 false, .run 2 false, .run 2 false, .run 2 false]

/-- C09. Every trace is one of a correct recursive lock: one holder, who may acquire again; a holder's
`try_lock()` never fails; the mutex changes hands only after as many `unlock()`s as acquisitions;
`unlock()` throws exactly if its caller is not the holder. -/
theorem C09_recursive_mutex_correct (as : List Act) (s : St) (es : List Ev)
    (h : runs step St.init as = some (s, es)) : RCorrect es := by
  obtain ⟨q, hq, _⟩ := runs_sim R step_sim as _ _ _ _ R_init h
  exact ⟨q, hq⟩

example : (runs step St.init demo2).map Prod.snd =
    some [.acq 1, .acq 1, .unlockCall 1, .unlockRet 1 true, .unlockCall 1, .unlockRet 1 true,
      .acq 2] := by decide

/-- What acceptance by the recursive specification means, read off the trace: `track` counts
acquisitions minus `unlock()` calls of each coroutine; at most one coroutine has a positive count. -/
theorem RCorrect_exclusive (es : List Ev) : ∀ q, accepts racc RQ.init es = some q →
    ∀ t, (q.holder = some t ↔ 0 < track (fun _ => 0) es t) ∧
      (q.holder = some t → q.depth = track (fun _ => 0) es t) := by
  induction es using list_snoc with
  | nil => intro q h t; simp [accepts, RQ.init] at h; simp [← h, track]
  | snoc es e ih =>
    intro q h t
    rw [accepts_append] at h
    cases h1 : accepts racc RQ.init es with
    | none => simp [h1] at h
    | some q1 =>
      have ih := ih q1 h1
      simp only [h1, Option.bind_some, accepts] at h
      have : track (fun _ => 0) (es ++ [e]) = track1 (track (fun _ => 0) es) e := by
        simp [track]
      rw [this]
      cases e with
      | acq u =>
        have iht := ih t
        have ihu := ih u
        simp only [racc] at h
        (repeat' split at h) <;> simp at h <;> subst h <;> simp only [track1] <;> grind
      | tryFail u =>
        simp only [racc] at h
        split at h <;> simp at h
        subst h
        exact ih t
      | unlockCall u =>
        have iht := ih t
        have ihu := ih u
        simp only [racc] at h
        (repeat' split at h) <;> simp at h <;> subst h <;> simp only [track1] <;> grind
      | unlockRet u ok =>
        simp only [racc] at h
        split at h <;> simp at h
        subst h
        exact ih t

/-- C09. At every point of every execution at most one coroutine has more acquisitions than
`unlock()` calls. -/
theorem C09_recursive_mutex_excludes (as : List Act) (s : St) (a b : List Ev)
    (h : runs step St.init as = some (s, a ++ b)) (t u : Tid)
    (ht : 0 < track (fun _ => 0) a t) (hu : 0 < track (fun _ => 0) a u) : t = u := by
  obtain ⟨q, hq⟩ := C09_recursive_mutex_correct as s _ h
  rw [accepts_append] at hq
  cases h1 : accepts racc RQ.init a with
  | none => simp [h1] at hq
  | some q1 =>
    have h2 := ((RCorrect_exclusive a q1 h1 t).1).2 ht
    have h3 := ((RCorrect_exclusive a q1 h1 u).1).2 hu
    simpa [h2] using h3

/-- C09, the count is exact: when nobody is inside a call, the mutex is owned by `t` exactly if `t` has
unmatched acquisitions, and its counter is their number; it is free exactly if nobody has any. -/
theorem C09_recursive_mutex_count_exact (s : St) (h : Reach step St.init s)
    (hout : ∀ t, s.pc t = .out) :
    (∀ t, s.owner = some t ↔ 0 < s.depth t) ∧
    (∀ t, s.owner = some t → s.count = s.depth t) ∧
    (s.owner = none ↔ ∀ t, s.depth t = 0) := by
  have hI := h.inv Inv inv_step inv_init
  have hl : ∀ t, (0 < s.depth t ↔ s.owner = some t) ∧ (s.owner = some t → s.count = s.depth t) := by
    intro t
    have := hI.loc t
    simp only [Loc, hout t] at this
    exact ⟨this.1, this.2.1⟩
  refine ⟨fun t => (hl t).1.symm, fun t => (hl t).2, ?_⟩
  constructor
  · intro hn t
    have := hl t
    grind
  · intro hz
    cases ho : s.owner with
    | none => rfl
    | some u => have := hl u; have := hz u; grind

/-- `depth` is what an observer counts: acquisitions minus `unlock()` calls. -/
theorem C09_depth_is_observable (as : List Act) (s : St) (es : List Ev)
    (h : runs step St.init as = some (s, es)) : s.depth = track (fun _ => 0) es := by
  have key : ∀ (as : List Act) (s0 s : St) (es : List Ev), runs step s0 as = some (s, es) →
      s.depth = track s0.depth es := by
    intro as
    induction as with
    | nil =>
      intro s0 s es h
      simp only [runs, Option.some.injEq, Prod.mk.injEq] at h
      simp [← h.1, ← h.2, track]
    | cons a as ih =>
      intro s0 s es h
      obtain ⟨s1, e1, e2, h1, h2, rfl⟩ := runs_cons h
      rw [ih s1 s e2 h2, ← track_step s0 a s1 e1 h1]
      simp [track]
  exact key as _ _ _ h

/-- C09, the holder never blocks: a coroutine that holds the mutex and calls `lock()` or `try_lock()`
acquires it at its first look (it needs only the internal spinlock). -/
theorem C09_holder_relock_never_blocks (s : St) (h : Reach step St.init s) (t : Tid)
    (hd : 0 < s.depth t) :
    (s.pc t = .lkFast → ∀ b, ∃ s', step s (.run t b) = some (s', []) ∧ s'.pc t = .lkRet) ∧
    (s.pc t = .tlTest → ∀ b, ∃ s', step s (.run t b) = some (s', []) ∧ s'.pc t = .tlRet true) := by
  have ho := (h.inv Inv inv_step inv_init).owner_of_depth hd
  constructor <;> intro hp b <;> simp [step, runStep, hp, ho, St.take]

example : ∃ s es, runs step St.init (demo.take 16) = some (s, es) ∧ 0 < s.depth 1 ∧
    s.pc 1 = .tlTest := ⟨_, _, rfl, by decide, rfl⟩

/-- C10. A coroutine that has been handed the mutex while queued is awake, not queued any more, and
holds it at depth one; sleeping coroutines are queued behind somebody else; a free mutex has nobody
queued or asleep. -/
theorem C10_recursive_mutex_handover (s : St) (h : Reach step St.init s) :
    (∀ t, (s.pc t = .lkParked ∨ s.pc t = .lkReacq2 ∨ s.pc t = .lkLoop) → s.owner = some t →
      s.count = 1 ∧ s.depth t = 0 ∧ s.asleep t = false ∧ t ∉ s.queue) ∧
    (∀ t, s.asleep t = true → t ∈ s.queue ∧ ∃ u, u ≠ t ∧ s.owner = some u) ∧
    (s.owner = none → s.queue = [] ∧ ∀ t, s.asleep t = false) := by
  have hI := h.inv Inv inv_step inv_init
  have hsl : ∀ t, s.asleep t = true → t ∈ s.queue ∧ s.owner ≠ some t := by
    intro t ht
    have := hI.loc t
    simp only [Loc] at this
    grind
  refine ⟨fun t hp ho => ?_, fun t ht => ⟨(hsl t ht).1, ?_⟩, fun hn => ⟨(hI.free hn).1, fun t => ?_⟩⟩
  · have := hI.loc t
    rcases hp with hp | hp | hp <;> simp only [Loc, hp] at this <;> grind
  · cases ho : s.owner with
    | none => have := hI.free ho; have := hsl t ht; grind
    | some u => exact ⟨u, by have := hsl t ht; grind, rfl⟩
  · have := hI.free hn; have := hsl t; grind

example : ∃ s es, runs step St.init (demo2.take 33) = some (s, es) ∧ s.pc 2 = .lkParked ∧
    s.owner = some 2 ∧ s.asleep 3 = true := ⟨_, _, rfl, rfl, rfl, rfl⟩

/-- C10. Outermost acquisitions happen in queue order: nobody overtakes a queued coroutine. -/
theorem C10_recursive_mutex_fifo (s : St) (h : Reach step St.init s) (t : Tid)
    (ahead behind : List Tid) (hq : s.queue = ahead ++ t :: behind) (as : List Act) (s' : St)
    (es : List Ev) (hr : runs step s as = some (s', es)) :
    firsts s.depth es <+: granted s ++ ahead ++ [t] ∨
      granted s ++ ahead ++ [t] <+: firsts s.depth es := by
  have hI := h.inv Inv inv_step inv_init
  obtain ⟨new, hn⟩ := order_runs as s s' es hI hr
  have h1 : firsts s.depth es <+: firsts s.depth es ++ expected s' := List.prefix_append _ _
  have h2 : granted s ++ ahead ++ [t] <+: firsts s.depth es ++ expected s' := by
    rw [hn, expected, hq]
    exact ⟨behind ++ new, by simp⟩
  exact List.prefix_or_prefix_of_prefix h1 h2

example : ∃ s es, runs step St.init demo = some (s, es) ∧ s.queue = [2] ++ 3 :: [] :=
  ⟨_, _, rfl, rfl⟩

/-- C10. `unlock()` by a coroutine that does not hold the mutex changes nothing. -/
theorem C10_recursive_mutex_bad_unlock_changes_nothing (s : St) (h : Reach step St.init s)
    (t : Tid) (hp : s.pc t = .ulAcq false ∨ s.pc t = .ulTest false) (b : Bool) (s' : St)
    (es : List Ev) (hs : step s (.run t b) = some (s', es)) :
    s'.owner = s.owner ∧ s'.count = s.count ∧ s'.queue = s.queue ∧ s'.asleep = s.asleep ∧
      s'.depth = s.depth ∧ (s.pc t = .ulTest false → s'.pc t = .ulRet false) := by
  have hI := h.inv Inv inv_step inv_init
  have hl := hI.loc t
  simp only [step, runStep] at hs
  rcases hp with hp | hp <;> simp only [Loc, hp, Bool.false_eq_true, false_iff] at hl <;>
    simp only [hp, St.acquire, St.goto, if_neg hl.1] at hs
  · split at hs <;> cases hs
    simp [hp]
  · cases hs
    simp

example : ∃ s es, runs step St.init (demo ++ [.callUnlock 4]) = some (s, es) ∧
    s.pc 4 = .ulAcq false := ⟨_, _, rfl, rfl⟩

/-- C10, progress: if no coroutine inside a call can make a step, everybody inside a call is queued
behind a client that holds the mutex and is not inside a call; and without new calls the coroutines
`L` inside calls make at most `10 · |L|` steps plus three per unexpired look at the clock. -/
theorem C10_recursive_mutex_progress (s : St) (h : Reach step St.init s) :
    ((∀ t b, step s (.run t b) = none) → ∀ t, s.pc t ≠ .out →
      t ∈ s.queue ∧ ∃ u, s.owner = some u ∧ 0 < s.depth u ∧ s.pc u = .out) ∧
    (∀ (L : List Tid), L.Nodup → (∀ u, u ∉ L → s.pc u = .out) → ∀ (c : Sched) (s' : St)
      (es : List Ev), runs step s c.acts = some (s', es) →
      c.length ≤ 10 * L.length + 3 * c.spins) := by
  have hI := h.inv Inv inv_step inv_init
  refine ⟨fun hstuck t ht => (stuck s hI hstuck t ht).2, fun L hn hL c s' es hr => ?_⟩
  have hb := bounded L hn c s s' es hI hL hr
  have h2 := sumOver_le (L := L) (f := rank s) (g := fun _ => 10) (fun u _ => rank_le s u)
  rw [sumOver_const] at h2
  omega

example : ∃ s es s' es', runs step St.init (demo ++ [.callUnlock 1]) = some (s, es) ∧
    runs step s (Sched.acts [(1, true), (1, true), (1, true)]) = some (s', es') :=
  ⟨_, _, _, _, rfl, rfl⟩

end Verif.RecMutex
