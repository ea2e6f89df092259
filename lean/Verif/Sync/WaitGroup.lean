import Verif.Monitor.AbsTerm

/-! # co_wait_group

Models `source/cocpp/sync/co_wait_group.cpp` as a monitor object. `size_t` is `Nat`: `done__` would have to be
incremented 2^64 times to wrap. -/

namespace Verif.WaitGroup
open Monitor

/-- Control points: `done` (co_wait_group.cpp:19-28); `wait` (30-37; the loop re-enters at the same point; the destructor, 14-17, is
a `wait`). -/
inductive Op
  | done
  | wait
  deriving DecidableEq, Repr

/-- How a call ends: returns; the assertion of co_wait_group.cpp:23 fails. -/
inductive Res
  | ok
  | abort
  deriving DecidableEq, Repr

/-- `done` counted; `wait` lets the caller through. (Concerns co_wait_group.cpp:8-37.) -/
inductive Lin
  | fin (t : Tid)
  | passed (t : Tid)
  deriving DecidableEq, Repr

/-- The object for `count__ = n`; the data is `done__`. A failing assertion is the distinct result `abort` (without
`NDEBUG` the process ends there; with it the execution goes on as modelled). (co_wait_group.cpp:8-37.) -/
def obj (n : Nat) : Obj Nat Unit Op Res Lin where
  body t k d :=
    match k with
    -- co_wait_group.cpp:22-27
    | .done => ⟨d + 1, [.fin t], if d + 1 = n then [.all ()] else [], .ret (if d + 1 ≤ n then .ok else .abort)⟩
    -- co_wait_group.cpp:33-36
    | .wait => if d < n then ⟨d, [], [], .park () .wait⟩ else ⟨d, [.passed t], [], .ret .ok⟩

/-! ## Specification -/

/-- Number of `done()`s in a trace. (Concerns co_wait_group.cpp:8-37.) -/
def dones (es : List (Ev Op Res Lin)) : Nat := es.countP fun e => match e with | .lin (.fin _) => true | _ => false

end Verif.WaitGroup
