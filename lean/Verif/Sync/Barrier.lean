import Verif.Monitor.AbsTerm

/-! # co_barrier

Models `source/cocpp/sync/co_barrier.cpp` (`include/cocpp/sync/co_barrier.h`) as a monitor object. `ptrdiff_t` is
`Int` (the generation would have to be incremented 2^63 times to overflow). `generation__` has no initialiser; it is a
C++20 `std::atomic`, hence starts at 0. Arguments of `arrive` are non-negative. -/

namespace Verif.Barrier
open Monitor

/-- Control points: `arrive(n)` (co_barrier.cpp:14-26); `wait(token)` (28-51) where `same` says whether `token.barrier__` is
this barrier, `g` and `n` are its other fields; `arrive_and_wait` (53-56); `arrive_and_drop` (58-61); and, not callable,
`resume g`: woken from co_barrier.cpp:49, entered with a token of generation `g`. -/
inductive Op
  | arrive (n : Nat)
  | wait (same : Bool) (g : Int) (n : Nat)
  | arriveWait
  | arriveDrop
  | resume (g : Int)
  deriving DecidableEq, Repr

/-- What a client can call. (Concerns co_barrier.cpp:7-61.) -/
def Op.callable : Op → Prop
  | .resume _ => False
  | _ => True

/-- How a call ends: returns; returns a token of generation `g` and count `n`; throws `logic_error`. (Concerns co_barrier.cpp:7-61.) -/
inductive Res
  | ok
  | token (g : Int) (n : Nat)
  | threw
  deriving DecidableEq, Repr

/-- `n` arrivals were registered in phase `g`; one arrival by `arrive_and_drop`; an arrival was refused; a `wait` with
count `n` was registered in phase `g`; a `wait` was refused; a `wait` registered in phase `g` goes on. (Concerns co_barrier.cpp:7-61.) -/
inductive Lin
  | arrived (t : Tid) (g : Int) (n : Nat)
  | dropped (t : Tid) (g : Int)
  | refused (t : Tid)
  | waited (t : Tid) (g : Int) (n : Nat)
  | badWait (t : Tid)
  | released (t : Tid) (g : Int)
  deriving DecidableEq, Repr

/-- `expected__`, `count__`, `generation__` (co_barrier.h:22-24). -/
structure B where
  expected : Int
  count : Int
  gen : Int
  deriving DecidableEq, Repr

/-- Lines 7-12. (Concerns co_barrier.cpp:7-61.) -/
def B.init (M : Int) : B := ⟨M, M, 0⟩

/-- Lines 17-25: register `n` arrivals, end with `f` or throw. (Concerns co_barrier.cpp:7-61.) -/
def arriveBody (t : Tid) (n : Nat) (ev : Lin) (f : Fin Unit Op Res) (b : B) : Out B Unit Op Res Lin :=
  if b.expected - n < 0 then ⟨b, [.refused t], [], .ret .threw⟩
  else ⟨{ b with expected := b.expected - n }, [ev], [], f⟩

/-- The object; `M` is `max__`. (co_barrier.cpp:7-61.) -/
def obj (M : Int) : Obj B Unit Op Res Lin where
  body t k b :=
    match k with
    | .arrive n => arriveBody t n (.arrived t b.gen n) (.ret (.token b.gen n)) b
    -- co_barrier.cpp:55: wait(arrive(1))
    | .arriveWait => arriveBody t 1 (.arrived t b.gen 1) (.next (.wait true b.gen 1)) b
    -- co_barrier.cpp:60
    | .arriveDrop => arriveBody t 1 (.dropped t b.gen) (.ret .ok) b
    | .wait same g n =>
      -- co_barrier.cpp:31-34
      if g ≠ b.gen ∨ same = false then ⟨b, [.badWait t], [], .ret .threw⟩
      -- co_barrier.cpp:35-38
      else if b.count - n < 0 then ⟨b, [.badWait t], [], .ret .threw⟩
      -- co_barrier.cpp:39-46
      else if b.count - n = 0 then ⟨⟨M, M, b.gen + 1⟩, [.waited t g n, .released t g], [.all ()], .ret .ok⟩
      -- co_barrier.cpp:47-50
      else ⟨{ b with count := b.count - n }, [.waited t g n], [], .park () (.resume g)⟩
    | .resume g => ⟨b, [.released t g], [], .ret .ok⟩

/-! ## Specification -/

/-- Specification: what a call does after its arrival. (Concerns co_barrier.cpp:7-61.) -/
inductive Then
  | token
  | wait
  | drop
  deriving DecidableEq, Repr

/-- Specification: state of a coroutine. (Concerns co_barrier.cpp:7-61.) -/
inductive QTh
  | idle
  | arriving (n : Nat) (m : Then)
  | atWait (same : Bool) (g : Int) (n : Nat)
  | inPhase (g : Int)
  | finished (r : Res)
  deriving DecidableEq, Repr

/-- `tokens`: arrivals the current phase still accepts; `left`: what is missing for the phase to complete. (Concerns co_barrier.cpp:7-61.) -/
structure Q where
  tokens : Int
  left : Int
  phase : Int
  th : Tid → QTh

/-- A barrier of size `M`: each phase accepts arrivals adding up to at most `M`, and is complete when `wait`s adding up
to `M` have been registered in it; a `wait` registered in a phase returns only when that phase is complete. (Concerns co_barrier.cpp:7-61.) -/
def acc (M : Int) (q : Q) : Ev Op Res Lin → Option Q
  | .call t (.arrive n) => if q.th t = .idle then some { q with th := upd q.th t (.arriving n .token) } else none
  | .call t .arriveWait => if q.th t = .idle then some { q with th := upd q.th t (.arriving 1 .wait) } else none
  | .call t .arriveDrop => if q.th t = .idle then some { q with th := upd q.th t (.arriving 1 .drop) } else none
  | .call t (.wait same g n) => if q.th t = .idle then some { q with th := upd q.th t (.atWait same g n) } else none
  | .call _ (.resume _) => none
  | .lin (.arrived t g n) =>
    if n ≤ q.tokens ∧ g = q.phase then
      if q.th t = .arriving n .token then
        some { q with tokens := q.tokens - n, th := upd q.th t (.finished (.token g n)) }
      else if q.th t = .arriving n .wait then
        some { q with tokens := q.tokens - n, th := upd q.th t (.atWait true g n) }
      else none
    else none
  | .lin (.dropped t g) =>
    if 1 ≤ q.tokens ∧ g = q.phase ∧ q.th t = .arriving 1 .drop then
      some { q with tokens := q.tokens - 1, th := upd q.th t (.finished .ok) } else none
  | .lin (.refused t) =>
    match q.th t with
    | .arriving n _ => if q.tokens < n then some { q with th := upd q.th t (.finished .threw) } else none
    | _ => none
  | .lin (.waited t g n) =>
    if q.th t = .atWait true g n ∧ g = q.phase ∧ n ≤ q.left then
      if q.left = n then some ⟨M, M, q.phase + 1, upd q.th t (.inPhase g)⟩
      else some { q with left := q.left - n, th := upd q.th t (.inPhase g) }
    else none
  | .lin (.badWait t) =>
    match q.th t with
    | .atWait same g n =>
      if same = false ∨ g ≠ q.phase ∨ q.left < n then some { q with th := upd q.th t (.finished .threw) } else none
    | _ => none
  | .lin (.released t g) =>
    if q.th t = .inPhase g ∧ g < q.phase then some { q with th := upd q.th t (.finished .ok) } else none
  | .ret t r => if q.th t = .finished r then some { q with th := upd q.th t .idle } else none

/-- Specification: the initial state. (Concerns co_barrier.cpp:7-61.) -/
def Q.init (M : Int) : Q := ⟨M, M, 0, fun _ => .idle⟩

/-- Specification: the trace is one of a barrier. (Concerns co_barrier.cpp:7-61.) -/
def Correct (M : Int) (es : List (Ev Op Res Lin)) : Prop := ∃ q, accepts (acc M) (Q.init M) es = some q

/-- One of two participants going on alone is not accepted. -/
example : ¬ Correct 2 [.call 1 .arriveWait, .lin (.arrived 1 0 1), .lin (.waited 1 0 1), .lin (.released 1 0)] := by
  rintro ⟨q, h⟩; simp [accepts, acc, Q.init] at h

end Verif.Barrier
