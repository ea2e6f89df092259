import Verif.Monitor.AbsTerm

/-! # co_counting_semaphore

Models `include/cocpp/sync/co_counting_semaphore.h` as a monitor object. -/

namespace Verif.Semaphore
open Monitor

/-- Control points, one per critical section: `acquire` (co_counting_semaphore.h:38-46; the loop re-enters at the same point),
`release_one__` with `n` more to follow (co_counting_semaphore.h:52-59, called from the loop of 65-68), `try_acquire` (co_counting_semaphore.h:74-82).
`release(update)` with `update ≤ 0` executes no section and is not a call here. -/
inductive Op
  | acquire
  | release (n : Nat)
  | tryAcquire
  deriving DecidableEq, Repr

/-- `cv_empty__`, `cv_full__` (co_counting_semaphore.h:19-20). -/
inductive Cv
  | empty
  | full
  deriving DecidableEq, Repr

/-- A permit is taken / put back / found missing. (Concerns co_counting_semaphore.h:19-118.) -/
inductive Lin
  | took (t : Tid)
  | gave (t : Tid)
  | failed (t : Tid)
  deriving DecidableEq, Repr

/-- The object; the data is `desired__` (co_counting_semaphore.h:21), `M` is `LeastMaxValue`. (co_counting_semaphore.h:36-118.) -/
def obj (M : Int) : Obj Int Cv Op Bool Lin where
  body t k d :=
    match k with
    -- co_counting_semaphore.h:39-46
    | .acquire =>
      if d = 0 then ⟨d, [], [], .park .empty .acquire⟩
      else ⟨d - 1, [.took t], [.one .full], .ret true⟩
    -- co_counting_semaphore.h:53-59, 65-68
    | .release n =>
      if d = M then ⟨d, [], [], .park .full (.release n)⟩
      else ⟨d + 1, [.gave t], [.one .empty], match n with | 0 => .ret true | n + 1 => .next (.release n)⟩
    -- co_counting_semaphore.h:75-82
    | .tryAcquire =>
      if d = 0 then ⟨d, [.failed t], [], .ret false⟩
      else ⟨d - 1, [.took t], [.one .full], .ret true⟩

/-! ## Specification (does not mention the object) -/

/-- What a caller is doing, as far as its calls and events tell. (Concerns co_counting_semaphore.h:19-118.) -/
inductive QTh
  | idle
  | acquiring
  | releasing (n : Nat)
  | trying
  | finished (b : Bool)
  deriving DecidableEq, Repr

/-- Specification: the state of a semaphore. (Concerns co_counting_semaphore.h:19-118.) -/
structure Q where
  permits : Int
  th : Tid → QTh

/-- A semaphore with at most `M` permits: a permit is taken only when there is one, put back only below the maximum; an
attempt fails only when there is none; `acquire` and a successful `try_acquire` take exactly one, `release (n+1)`
puts back exactly `n + 1`, a failing `try_acquire` nothing; each exactly between call and return. (Concerns co_counting_semaphore.h:19-118.) -/
def acc (M : Int) (q : Q) : Ev Op Bool Lin → Option Q
  | .call t .acquire => if q.th t = .idle then some { q with th := upd q.th t .acquiring } else none
  | .call t (.release n) => if q.th t = .idle then some { q with th := upd q.th t (.releasing n) } else none
  | .call t .tryAcquire => if q.th t = .idle then some { q with th := upd q.th t .trying } else none
  | .lin (.took t) =>
    if 0 < q.permits ∧ (q.th t = .acquiring ∨ q.th t = .trying) then
      some ⟨q.permits - 1, upd q.th t (.finished true)⟩ else none
  | .lin (.gave t) =>
    if q.permits < M then
      match q.th t with
      | .releasing 0 => some ⟨q.permits + 1, upd q.th t (.finished true)⟩
      | .releasing (n + 1) => some ⟨q.permits + 1, upd q.th t (.releasing n)⟩
      | _ => none
    else none
  | .lin (.failed t) =>
    if q.permits = 0 ∧ q.th t = .trying then some { q with th := upd q.th t (.finished false) } else none
  | .ret t b => if q.th t = .finished b then some { q with th := upd q.th t .idle } else none

/-- Specification: the initial state. (Concerns co_counting_semaphore.h:19-118.) -/
def Q.init (d : Int) : Q := ⟨d, fun _ => .idle⟩

/-- The trace is one of a correct semaphore with initial value `d`. (Concerns co_counting_semaphore.h:19-118.) -/
def Correct (M d : Int) (es : List (Ev Op Bool Lin)) : Prop := ∃ q, accepts (acc M) (Q.init d) es = some q

/-- Taking a permit that is not there is not accepted. -/
example : ¬ Correct 1 0 [.call 1 .acquire, .lin (.took 1)] := by
  rintro ⟨q, h⟩; simp [accepts, acc, Q.init] at h

end Verif.Semaphore
