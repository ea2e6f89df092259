import Verif.Base.Lts

/-!
# What a reader-writer lock must do: specification over observable events

Does not mention the model of co_shared_mutex.
-/

namespace Verif.RwSpec

/-- How the lock is held. (Concerns co_shared_mutex.cpp:15-218, co_recursive_mutex.cpp:14-107.) -/
inductive Mode
  | unique
  | shared
  deriving DecidableEq, Repr

/-- Observable events of a reader-writer lock. (Concerns co_shared_mutex.cpp:15-218, co_recursive_mutex.cpp:14-107.) -/
inductive Ev
  /-- `lock()` / `lock_shared()` of `t` returned, or the try version returned true -/
  | acq (m : Mode) (t : Tid)
  /-- the try version returned false -/
  | tryFail (m : Mode) (t : Tid)
  /-- `t` called `unlock()` / `unlock_shared()` -/
  | unlockCall (m : Mode) (t : Tid)
  /-- which returned normally or threw -/
  | unlockRet (m : Mode) (t : Tid) (ok : Bool)
  deriving DecidableEq, Repr

/-- Specification state: the writer inside, the readers inside, and the outcome each pending unlock
must have. (Concerns co_shared_mutex.cpp:15-218, co_recursive_mutex.cpp:14-107.) -/
structure Q where
  w : Option Tid
  r : List Tid
  pend : Tid → Option Bool

/-- Specification: the initial state. (Concerns co_shared_mutex.cpp:15-218, co_recursive_mutex.cpp:14-107.) -/
def Q.init : Q := ⟨none, [], fun _ => none⟩

/-- One writer and nobody else, or only readers; an unlock succeeds exactly if its caller was inside
in that mode. (Concerns co_shared_mutex.cpp:15-218, co_recursive_mutex.cpp:14-107.) -/
def acc (q : Q) : Ev → Option Q
  | .acq .unique t => if q.w = none ∧ q.r = [] then some { q with w := some t } else none
  | .acq .shared t => if q.w = none ∧ t ∉ q.r then some { q with r := t :: q.r } else none
  | .tryFail _ _ => some q
  | .unlockCall .unique t =>
    if q.w = some t then some { q with w := none, pend := upd q.pend t (some true) }
    else some { q with pend := upd q.pend t (some false) }
  | .unlockCall .shared t =>
    if t ∈ q.r then some { q with r := q.r.erase t, pend := upd q.pend t (some true) }
    else some { q with pend := upd q.pend t (some false) }
  | .unlockRet _ t ok =>
    if q.pend t = some ok then some { q with pend := upd q.pend t none } else none

/-- The trace is one a correct reader-writer lock may produce. (Concerns co_shared_mutex.cpp:15-218, co_recursive_mutex.cpp:14-107.) -/
def Correct (es : List Ev) : Prop := ∃ q, accepts acc Q.init es = some q

example : Correct [.acq .shared 1, .acq .shared 2, .unlockCall .shared 1, .unlockRet .shared 1 true,
    .unlockCall .shared 2, .acq .unique 3, .unlockRet .shared 2 true] := ⟨_, rfl⟩

example : ¬ Correct [.acq .shared 1, .acq .unique 2] := by
  rintro ⟨q, h⟩; simp [accepts, acc, Q.init] at h

example : ¬ Correct [.acq .unique 1, .acq .shared 2] := by
  rintro ⟨q, h⟩; simp [accepts, acc, Q.init] at h

example : ¬ Correct [.acq .unique 1, .unlockCall .unique 1, .unlockRet .unique 1 false] := by
  rintro ⟨q, h⟩; simp [accepts, acc, Q.init] at h

end Verif.RwSpec
