import Verif.Monitor.AbsTerm

/-! # co_latch

Models `source/cocpp/sync/co_latch.cpp` (`include/cocpp/sync/co_latch.h`) as a monitor object. `ptrdiff_t` is `Int`:
the only arithmetic is `expect__ -= n` with `0 ≤ n ≤ expect__`, which cannot overflow. -/

namespace Verif.Latch
open Monitor

/-- Control points: `count_down(n)` (co_latch.cpp:14-26), `try_wait` (28-32), `wait` (34-41; the loop re-enters at the same
point), `arrive_and_wait(n)` (43-47: `count_down(n)`, then `wait()`). Arguments are non-negative. -/
inductive Op
  | countDown (n : Nat)
  | tryWait
  | wait
  | arriveWait (n : Nat)
  deriving DecidableEq, Repr

/-- How a call ends: returns; throws `logic_error` (co_latch.cpp:19); `try_wait` returns `b`. -/
inductive Res
  | done
  | threw
  | tried (b : Bool)
  deriving DecidableEq, Repr

/-- `n` counted down; refused; passed by `wait`; looked at by `try_wait`. (Concerns co_latch.cpp:14-45.) -/
inductive Lin
  | down (t : Tid) (n : Nat)
  | refused (t : Tid) (n : Nat)
  | passed (t : Tid)
  | looked (t : Tid) (b : Bool)
  deriving DecidableEq, Repr

/-- The object; the data is `expect__` (co_latch.h:15), the only condition variable `cond__`. -/
def obj : Obj Int Unit Op Res Lin where
  body t k e :=
    match k with
    -- co_latch.cpp:17-25
    | .countDown n =>
      if e < n then ⟨e, [.refused t n], [], .ret .threw⟩
      else ⟨e - n, [.down t n], if e - n = 0 then [.all ()] else [], .ret .done⟩
    -- co_latch.cpp:31
    | .tryWait => ⟨e, [.looked t (decide (e = 0))], [], .ret (.tried (decide (e = 0)))⟩
    -- co_latch.cpp:37-40
    | .wait => if e > 0 then ⟨e, [], [], .park () .wait⟩ else ⟨e, [.passed t], [], .ret .done⟩
    -- co_latch.cpp:45 (17-25), 46
    | .arriveWait n =>
      if e < n then ⟨e, [.refused t n], [], .ret .threw⟩
      else ⟨e - n, [.down t n], if e - n = 0 then [.all ()] else [], .next .wait⟩

/-! ## Specification -/

/-- Specification: state of a coroutine. (Concerns co_latch.cpp:14-45.) -/
inductive QTh
  | idle
  | counting (n : Nat) (thenWait : Bool)
  | looking
  | waiting
  | finished (r : Res)
  deriving DecidableEq, Repr

/-- `left`: what remains to be counted down. (Concerns co_latch.cpp:14-45.) -/
structure Q where
  left : Int
  th : Tid → QTh

/-- A latch: only what is left can be counted down, more is refused and changes nothing; `wait` passes only when
nothing is left; `try_wait` tells whether nothing is left. (Concerns co_latch.cpp:14-45.) -/
def acc (q : Q) : Ev Op Res Lin → Option Q
  | .call t (.countDown n) => if q.th t = .idle then some { q with th := upd q.th t (.counting n false) } else none
  | .call t (.arriveWait n) => if q.th t = .idle then some { q with th := upd q.th t (.counting n true) } else none
  | .call t .tryWait => if q.th t = .idle then some { q with th := upd q.th t .looking } else none
  | .call t .wait => if q.th t = .idle then some { q with th := upd q.th t .waiting } else none
  | .lin (.down t n) =>
    if n ≤ q.left then
      if q.th t = .counting n false then some ⟨q.left - n, upd q.th t (.finished .done)⟩
      else if q.th t = .counting n true then some ⟨q.left - n, upd q.th t .waiting⟩
      else none
    else none
  | .lin (.refused t n) =>
    if q.left < n ∧ (q.th t = .counting n false ∨ q.th t = .counting n true) then
      some { q with th := upd q.th t (.finished .threw) } else none
  | .lin (.passed t) =>
    if q.left = 0 ∧ q.th t = .waiting then some { q with th := upd q.th t (.finished .done) } else none
  | .lin (.looked t b) =>
    if b = decide (q.left = 0) ∧ q.th t = .looking then some { q with th := upd q.th t (.finished (.tried b)) }
    else none
  | .ret t r => if q.th t = .finished r then some { q with th := upd q.th t .idle } else none

/-- Specification: the initial state. (Concerns co_latch.cpp:14-45.) -/
def Q.init (e : Int) : Q := ⟨e, fun _ => .idle⟩

/-- Specification: the trace is one of a latch. (Concerns co_latch.cpp:14-45.) -/
def Correct (e : Int) (es : List (Ev Op Res Lin)) : Prop := ∃ q, accepts acc (Q.init e) es = some q

/-- Passing with something left is not accepted. -/
example : ¬ Correct 1 [.call 1 .wait, .lin (.passed 1)] := by
  rintro ⟨q, h⟩; simp [accepts, acc, Q.init] at h

end Verif.Latch
