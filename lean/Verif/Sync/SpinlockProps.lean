import Verif.Sync.Spinlock

/-! # Properties of co_spinlock (C01) -/

namespace Verif.Spinlock
open LockSpec

/-- C01. Whatever the schedule and the number of coroutines: as long as only holders call
`unlock()`, acquisitions and releases alternate. -/
theorem C01_spinlock_excludes (as : List Act) (s : St) (es : List Ev)
    (h : runs (step false) St.init as = some (s, es)) : Correct es := by
  obtain ⟨q, hq, _⟩ := runs_sim R step_sim as _ _ _ _ R_init h
  exact ⟨q, hq⟩

/-- A contended execution meeting the hypothesis. -/
example : runs (step false) St.init [.callLock 1, .callLock 2, .spin 2, .spin 1, .tryLock 3,
    .unlock 2, .spin 1] = some
    (⟨true, upd (upd (upd (upd (fun _ => false) 1 true) 2 true) 2 false) 1 false,
      upd (upd (upd (fun _ => false) 2 true) 2 false) 1 true⟩,
     [.acq 2, .tryFail 3, .unlockCall 2, .unlockRet 2 true, .acq 1]) := rfl

/-- C01, no lost lock: if nobody holds the spinlock, the next iteration of every coroutine inside
`lock()` acquires it, and so does every `try_lock()`. -/
theorem C01_spinlock_free_can_be_taken (as : List Act) (s : St) (es : List Ev)
    (h : runs (step false) St.init as = some (s, es)) (hfree : ∀ u, s.hold u = false) (t : Tid) :
    (s.inLock t = true → ∃ s', step false s (.spin t) = some (s', [.acq t])) ∧
    (s.inLock t = false → ∃ s', step false s (.tryLock t) = some (s', [.acq t])) := by
  obtain ⟨q, _, hR⟩ := runs_sim R step_sim as _ _ _ _ R_init h
  have hl : s.locked = false := by
    have := hR.inv.flag
    grind
  constructor <;> intro ht <;> simp [step, ht, hl]

example : ∃ s es, runs (step false) St.init [.tryLock 1, .callLock 2, .spin 2, .unlock 1]
    = some (s, es) ∧ s.inLock 2 = true ∧ s.hold 1 = false := ⟨_, _, rfl, rfl, rfl⟩

/-- C01, the precondition is needed: `unlock()` has no owner check, so a coroutine that releases a
spinlock it does not hold lets two coroutines in. -/
theorem C01_unlock_by_stranger_breaks_exclusion :
    ∃ as s es, runs (step true) St.init as = some (s, es) ∧ ¬ Correct es := by
  refine ⟨[.tryLock 1, .unlock 2, .tryLock 3], _, _, rfl, ?_⟩
  rintro ⟨q, h⟩
  simp [accepts, acc, Q.init] at h

end Verif.Spinlock
