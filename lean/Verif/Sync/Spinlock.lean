import Verif.Sync.LockSpec

/-!
# co_spinlock

Models `source/cocpp/sync/co_spinlock.cpp`.
-/

namespace Verif.Spinlock
open LockSpec

/-- State of one spinlock: `locked` is `locked__` (include/cocpp/sync/co_spinlock.h), `inLock t`
says that coroutine `t` is inside `lock()`, `hold t` is the client's own record of having the lock
(ghost, used only to state who may call `unlock()`). -/
structure St where
  locked : Bool
  inLock : Tid → Bool
  hold : Tid → Bool

/-- A new spinlock (co_spinlock.h:13): free. -/
def St.init : St := ⟨false, fun _ => false, fun _ => false⟩

/-- `callLock`, `tryLock`, `unlock`: client calls; `spin t`: coroutine `t`, inside `lock()`, runs
one iteration of the loop. (Concerns co_spinlock.cpp:10-28.) -/
inductive Act
  | callLock (t : Tid)
  | spin (t : Tid)
  | tryLock (t : Tid)
  | unlock (t : Tid)
  deriving DecidableEq, Repr

/-- co_spinlock.cpp:12-18 (`lock`: `while (test_and_set) CoYield()`; one `test_and_set` is one
step), 20-23 (`try_lock`), 25-28 (`unlock`; the code has no owner check, so `anyUnlock = true`
allows anybody to call it and `anyUnlock = false` models clients that only release what they
took). Simplified: memory orders are sequentially consistent. -/
def step (anyUnlock : Bool) (s : St) : Act → Option (St × List Ev)
  | .callLock t =>
    if s.inLock t then none else some ({ s with inLock := upd s.inLock t true }, [])
  | .spin t =>
    if s.inLock t then
      if s.locked then some (s, [])
      else some ({ locked := true, inLock := upd s.inLock t false, hold := upd s.hold t true },
        [.acq t])
    else none
  | .tryLock t =>
    if s.inLock t then none
    else if s.locked then some (s, [.tryFail t])
    else some ({ s with locked := true, hold := upd s.hold t true }, [.acq t])
  | .unlock t =>
    if s.inLock t then none
    else if s.hold t || anyUnlock then
      some ({ s with locked := false, hold := upd s.hold t false },
        [.unlockCall t, .unlockRet t true])
    else none

/-- Invariant: the lock flag says whether somebody holds the lock, and at most one does. (Concerns co_spinlock.cpp:10-28.) -/
structure Inv (s : St) : Prop where
  flag : s.locked = true ↔ ∃ t, s.hold t = true
  uniq : ∀ t u, s.hold t = true → s.hold u = true → t = u

/-- Relation to the specification: the specification's holder is the holder. (Concerns co_spinlock.cpp:10-28.) -/
structure R (s : St) (q : Q) : Prop where
  inv : Inv s
  cs : ∀ t, q.cs = some t ↔ s.hold t = true

theorem inv_init : Inv St.init := ⟨by simp [St.init], by simp [St.init]⟩

theorem R_init : R St.init Q.init := ⟨inv_init, by simp [St.init, Q.init]⟩

theorem step_sim (s : St) (a : Act) (s' : St) (es : List Ev) (q : Q) (h : R s q)
    (hs : step false s a = some (s', es)) :
    ∃ q', accepts acc q es = some q' ∧ R s' q' := by
  obtain ⟨⟨hf, hu⟩, hc⟩ := h
  have hnone : s.locked = false → q.cs = none := by
    intro hl
    cases hq : q.cs with
    | none => rfl
    | some t => have := (hc t).1 hq; grind
  cases a with
  | callLock t =>
    simp only [step] at hs
    split at hs
    · cases hs
    · cases hs
      exact ⟨q, rfl, ⟨hf, hu⟩, hc⟩
  | spin t =>
    simp only [step] at hs
    split at hs <;> try cases hs
    split at hs
    · cases hs
      exact ⟨q, rfl, ⟨hf, hu⟩, hc⟩
    · cases hs
      have hl : s.locked = false := by grind
      have hn := hnone hl
      refine ⟨{ q with cs := some t }, by simp [accepts, acc, hn], ⟨?_, ?_⟩, ?_⟩
      · simp only [true_iff]; exact ⟨t, by grind⟩
      · simp only; grind
      · intro u; simp only; grind
  | tryLock t =>
    simp only [step] at hs
    split at hs <;> try cases hs
    split at hs
    · cases hs
      exact ⟨q, rfl, ⟨hf, hu⟩, hc⟩
    · cases hs
      have hl : s.locked = false := by grind
      have hn := hnone hl
      refine ⟨{ q with cs := some t }, by simp [accepts, acc, hn], ⟨?_, ?_⟩, ?_⟩
      · simp only [true_iff]; exact ⟨t, by grind⟩
      · simp only; grind
      · intro u; simp only; grind
  | unlock t =>
    simp only [step] at hs
    split at hs <;> try cases hs
    split at hs
    · cases hs
      rename_i h1 h2
      have ht : s.hold t = true := by simpa using h2
      have hq := (hc t).2 ht
      refine ⟨_, by simp [accepts, acc, hq]; rfl, ⟨?_, ?_⟩, ?_⟩
      · simp only [Bool.false_eq_true, false_iff, not_exists]; intro u; grind
      · simp only; grind
      · intro u; simp only; grind
    · cases hs

end Verif.Spinlock
