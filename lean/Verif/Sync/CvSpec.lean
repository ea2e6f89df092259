import Verif.Base.Lts

/-!
# What a condition variable must do: specification over events

A first-in first-out queue of waiting coroutines. Does not mention the model of co_condition_variable.
-/

namespace Verif.CvSpec

/-- Observable events of a condition variable and its mutex (no counterpart in the code). (Concerns co_condition_variable.h:51-165, co_condition_variable.cpp:18-39.) -/
inductive Ev
  /-- `wait` of `t` released the mutex: from here on it counts as waiting -/
  | release (t : Tid)
  /-- a `notify_one` took effect -/
  | notifyOne
  /-- a `notify_all` took effect -/
  | notifyAll
  /-- the timer of a timed wait of `t` fired -/
  | timeout (t : Tid)
  /-- `t` stopped waiting; it goes on to lock the mutex -/
  | back (t : Tid)
  /-- `t` locked the mutex again (inside `wait`) -/
  | relocked (t : Tid)
  /-- `t` evaluated the predicate of its wait -/
  | pred (t : Tid) (b : Bool)
  /-- `wait` of `t` returned `b` (`true` for the untimed versions without result) -/
  | ret (t : Tid) (b : Bool)
  /-- `t` took / released the mutex outside `wait` -/
  | lock (t : Tid)
  | unlock (t : Tid)
  deriving DecidableEq, Repr

/-- `queue`: the coroutines waiting, longest first. `woken t`: `t` has been released from waiting but has
not noticed yet. `mtx`: who holds the mutex. (Concerns co_condition_variable.h:51-165, co_condition_variable.cpp:18-39.) -/
structure Q where
  queue : List Tid
  woken : Tid → Bool
  mtx : Option Tid

/-- Specification: the initial state. (Concerns co_condition_variable.h:51-165, co_condition_variable.cpp:18-39.) -/
def Q.init : Q := ⟨[], fun _ => false, none⟩

/-- `release t` needs the mutex held by `t`, gives it up and queues `t`; `notifyOne` releases the first of the
queue if any; `notifyAll` all; `timeout t` releases `t` if it waits; only a released coroutine stops waiting
(no spurious wake-up); predicates are evaluated and waits return with the mutex held. (Concerns co_condition_variable.h:51-165, co_condition_variable.cpp:18-39.) -/
def acc (q : Q) : Ev → Option Q
  | .release t =>
    if q.mtx = some t ∧ t ∉ q.queue ∧ q.woken t = false then
      some { q with queue := q.queue ++ [t], mtx := none } else none
  | .notifyOne =>
    match q.queue with
    | [] => some q
    | u :: rest => some { q with queue := rest, woken := upd q.woken u true }
  | .notifyAll => some { q with queue := [], woken := fun u => q.woken u || decide (u ∈ q.queue) }
  | .timeout t =>
    if t ∈ q.queue then some { q with queue := q.queue.erase t, woken := upd q.woken t true }
    else some q
  | .back t => if q.woken t = true then some { q with woken := upd q.woken t false } else none
  | .relocked t => if q.mtx = none then some { q with mtx := some t } else none
  | .pred t _ => if q.mtx = some t then some q else none
  | .ret t _ => if q.mtx = some t then some q else none
  | .lock t => if q.mtx = none then some { q with mtx := some t } else none
  | .unlock t => if q.mtx = some t then some { q with mtx := none } else none

/-- The trace is one a correct condition variable (with its mutex) may produce. (Concerns co_condition_variable.h:51-165, co_condition_variable.cpp:18-39.) -/
def Correct (es : List Ev) : Prop := ∃ q, accepts acc Q.init es = some q

example : Correct [.lock 1, .release 1, .lock 2, .release 2, .notifyOne, .back 1, .relocked 1, .ret 1 true] :=
  ⟨_, rfl⟩

/-- The second in the queue must not be woken first. -/
example : ¬ Correct [.lock 1, .release 1, .lock 2, .release 2, .notifyOne, .back 2] := by
  rintro ⟨q, h⟩; simp [accepts, acc, Q.init] at h

/-- A lost notification is not accepted: nobody may wake without one … -/
example : ¬ Correct [.lock 1, .release 1, .back 1] := by
  rintro ⟨q, h⟩; simp [accepts, acc, Q.init] at h

end Verif.CvSpec
