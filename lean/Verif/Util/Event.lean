import Verif.Base.Lts

/-! # `co_event` (include/cocpp/event/co_event.h)

Every operation runs under the event's recursive mutex, so operations of different threads do not interleave; but the
callbacks called by `pub` may themselves subscribe and unsubscribe. `pub` is therefore a sequence of steps with operations
in between. Simplified: a `pub` inside a callback is not modelled (it does not change the subscriptions by itself). -/

namespace Verif.Event

/-- The key used in `std::map<int, ...>` for a handle (co_event.h:21,34,42): conversion from `unsigned long long` to `int`. -/
def key (h : Nat) : Int := if h % 2 ^ 32 < 2 ^ 31 then (h % 2 ^ 32 : Nat) else (h % 2 ^ 32 : Nat) - 2 ^ 32

/-- `cb_list__[k] = c`: the map in ascending key order. (Concerns co_event.h:20-53.) -/
def insert {C : Type} (k : Int) (c : C) : List (Int × C) → List (Int × C)
  | [] => [(k, c)]
  | (k', c') :: m => if k < k' then (k, c) :: (k', c') :: m else if k = k' then (k, c) :: m else (k', c') :: insert k c m

/-- `cb_list__.erase(k)`. (Concerns co_event.h:20-53.) -/
def erase {C : Type} (k : Int) (m : List (Int × C)) : List (Int × C) := m.filter (fun p => p.1 ≠ k)

/-- The element the iterator moves to from the one with key `k`. (Concerns co_event.h:20-53.) -/
def after {C : Type} (k : Int) (m : List (Int × C)) : Option (Int × C) := m.find? (fun p => k < p.1)

/-- State: the map, `current_handler__`, and while a `pub` is in progress the key its iterator points at and whether that
element has been erased. (co_event.h:20-22.) -/
structure State (C : Type) where
  map : List (Int × C)
  cur : Nat
  it : Option (Int × Bool)
  deriving DecidableEq

/-- A new event (co_event.h:30-53): no subscribers. -/
def State.init {C : Type} : State C := ⟨[], 0, none⟩

/-- Operations on an event; a publication is executed callback by callback (co_event.h:30-53). -/
inductive Act (C : Type)
  | sub (c : C)
  | unsub (h : Nat)
  | pub
  /-- the callback the iterator points at returns -/
  | next
  deriving DecidableEq

/-- What happened (no counterpart in the code). (Concerns co_event.h:20-53.) -/
inductive Ev (C : Type)
  | sub (h : Nat) (c : C)
  | unsub (h : Nat)
  | start
  | call (k : Int) (c : C)
  | fin
  /-- the iterator is advanced although its element was erased: undefined behaviour -/
  | ub
  deriving DecidableEq

/-- co_event.h:30-36 (`sub`), 38-43 (`unsub`), 45-53 (`pub`). -/
def step {C : Type} (s : State C) : Act C → Option (State C × List (Ev C))
  | .sub c => some ({ s with map := insert (key s.cur) c s.map, cur := (s.cur + 1) % 2 ^ 64 }, [.sub s.cur c])
  | .unsub h =>
    some ({ s with
      map := erase (key h) s.map
      it := match s.it with
        | some (k, d) => some (k, d || k == key h)
        | none => none }, [.unsub h])
  | .pub =>
    if s.it.isSome then none
    else match s.map with
      | [] => some (s, [.start, .fin])
      | (k, c) :: _ => some ({ s with it := some (k, false) }, [.start, .call k c])
  | .next =>
    match s.it with
    | none => none
    | some (_, true) => some ({ s with it := none }, [.ub])
    | some (k, false) =>
      match after k s.map with
      | some (k', c) => some ({ s with it := some (k', false) }, [.call k' c])
      | none => some ({ s with it := none }, [.fin])

/-! ## The specification: subscriptions as a list in the order they were made -/

/-- What an event does to the subscriptions. (Concerns co_event.h:20-53.) -/
def note {C : Type} (l : List (Nat × C)) : Ev C → List (Nat × C)
  | .sub h c => l ++ [(h, c)]
  | .unsub h => l.filter (fun p => p.1 ≠ h)
  | _ => l

/-- The current subscriptions after a history. (Concerns co_event.h:20-53.) -/
def subs {C : Type} (es : List (Ev C)) : List (Nat × C) := es.foldl note []

/-- The handles returned by `sub`. (Concerns co_event.h:20-53.) -/
def handles {C : Type} (es : List (Ev C)) : List Nat := es.filterMap (fun e => match e with | .sub h _ => some h | _ => none)

/-- The callbacks called. (Concerns co_event.h:20-53.) -/
def calls {C : Type} (es : List (Ev C)) : List C := es.filterMap (fun e => match e with | .call _ c => some c | _ => none)

end Verif.Event
