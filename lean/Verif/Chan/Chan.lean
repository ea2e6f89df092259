import Verif.Monitor.AbsTerm

/-! # co_chan

Models `include/cocpp/event/co_chan.h` (all three kinds, and the iterator used by range-for) as a monitor object. The
predicate version of `wait` (co_condition_variable.h:69-88) waits first and tests afterwards. Values are of an arbitrary
type; `deque` is `List`; `size_t`/`int` sizes are `Nat`. -/

namespace Verif.Chan
open Monitor

/-- Constructor, co_chan.h:98-113: `max_size < 0`, `= 0`, `> 0`. -/
inductive Kind
  | unlimited
  | sync
  | fixed (n : Nat)
  deriving DecidableEq, Repr

/-- Control points. Calls: `push` (159-230), `pop` (238-263), `close` (271-278), `closed()` (310-315), `empty()`
(323-328), and `next`: one step of a range-for loop, i.e. `++it` (350-354; also in the constructor, 343-347) followed by
`it != end()` (379-396). Not callable: `pushW` = woken in the first wait of `push`, `syncW` = woken in the second one
(co_chan.h:225-227), `popW`, `nextW` = woken in `pop`; `nextC o`, `nextE o` = evaluating `closed()`, `empty()` in `!=` with
`value__ = o`. -/
inductive Op (α : Type)
  | push (v : α)
  | pushW (v : α)
  | syncW
  | pop
  | popW
  | next
  | nextW
  | nextC (o : Option α)
  | nextE (o : Option α)
  | close
  | isClosed
  | isEmpty
  deriving DecidableEq, Repr

/-- The operations of the public interface (co_chan.h:85-93); the others only occur inside a call. -/
def Op.callable {α : Type} : Op α → Prop
  | .push _ | .pop | .next | .close | .isClosed | .isEmpty => True
  | _ => False

/-- Results: of `push`, of `pop`, of `closed()`/`empty()`, of `close`; the loop body is entered with a value, the loop
ends, or the loop body is entered although `value__` is empty (undefined behaviour when dereferenced). (co_chan.h:159-315.) -/
inductive Res (α : Type)
  | pushed (b : Bool)
  | popped (o : Option α)
  | told (b : Bool)
  | ok
  | item (v : α)
  | stop
  | nullDeref
  deriving DecidableEq, Repr

/-- `cv_full__`, `cv_empty__`. (co_chan.h:24-25.) -/
inductive Cv
  | full
  | empty
  deriving DecidableEq, Repr

/-- `v` enters the channel; a push is refused; `v` leaves; the channel is found drained; it is closed; a question is
answered. (Concerns co_chan.h:21-386.) -/
inductive Lin (α : Type)
  | accepted (t : Tid) (v : α)
  | refused (t : Tid)
  | got (t : Tid) (v : α)
  | drained (t : Tid)
  | closes (t : Tid)
  | saysClosed (t : Tid) (b : Bool)
  | saysEmpty (t : Tid) (b : Bool)
  deriving DecidableEq, Repr

/-- `data__`, `closed__` (co_chan.h:21-22). -/
structure Ch (α : Type) where
  data : List α
  closed : Bool
  deriving DecidableEq, Repr

/-- A new channel (co_chan.h:21-22): empty and open. -/
def Ch.init {α : Type} : Ch α := ⟨[], false⟩

/-- Abbreviation, no counterpart in the code. (Concerns co_chan.h:21-386.) -/
abbrev O (α : Type) := Out (Ch α) Cv (Op α) (Res α) (Lin α)

/-- `push_back`, `notify_one` (co_chan.h:178-179, 194-195, 222-223), then `f`. -/
def enter {α : Type} (t : Tid) (v : α) (f : Fin Cv (Op α) (Res α)) (c : Ch α) : O α :=
  ⟨{ c with data := c.data ++ [v] }, [.accepted t v], [.one .empty], f⟩

/-- `pop`, co_chan.h:242-262; woken or not, an empty open channel means waiting (at `w`). -/
def popBody {α : Type} (t : Tid) (w : Op α) (f : Option α → Fin Cv (Op α) (Res α)) (c : Ch α) : O α :=
  match c.data with
  | [] => if c.closed then ⟨c, [.drained t], [], f none⟩ else ⟨c, [], [], .park .empty w⟩
  | v :: rest => ⟨{ c with data := rest }, [.got t v], [.one .full], f (some v)⟩

/-- The loop body is entered. (Concerns co_chan.h:21-386.) -/
def enterLoop {α : Type} : Option α → Res α
  | some v => .item v
  | none => .nullDeref

/-- The object. (co_chan.h:98-315.) -/
def obj {α : Type} (kd : Kind) : Obj (Ch α) Cv (Op α) (Res α) (Lin α) where
  body t k c :=
    match k with
    | .push v =>
      if c.closed then ⟨c, [.refused t], [], .ret (.pushed false)⟩
      else match kd with
        -- co_chan.h:194-197
        | .unlimited => enter t v (.ret (.pushed true)) c
        -- co_chan.h:166-181
        | .fixed n =>
          if c.data.length = n then ⟨c, [], [], .park .full (.pushW v)⟩ else enter t v (.ret (.pushed true)) c
        -- co_chan.h:209-227
        | .sync =>
          if c.data.length = 1 then ⟨c, [], [], .park .full (.pushW v)⟩ else enter t v (.park .full .syncW) c
    | .pushW v =>
      match kd with
      -- does not wait
      | .unlimited => ⟨c, [], [], .ret .ok⟩
      -- predicate of co_chan.h:170, then 172-181
      | .fixed n =>
        if c.closed then ⟨c, [.refused t], [], .ret (.pushed false)⟩
        else if c.data.length < n then enter t v (.ret (.pushed true)) c
        else ⟨c, [], [], .park .full (.pushW v)⟩
      -- predicate of co_chan.h:213, then 215-218
      | .sync =>
        if c.closed then ⟨c, [.refused t], [], .ret (.pushed false)⟩ else ⟨c, [], [], .park .full (.pushW v)⟩
    -- predicate of co_chan.h:226
    | .syncW => if c.closed ∨ c.data = [] then ⟨c, [], [], .ret (.pushed true)⟩ else ⟨c, [], [], .park .full .syncW⟩
    | .pop | .popW => popBody t .popW (fun o => .ret (.popped o)) c
    | .next | .nextW => popBody t .nextW (fun o => .next (.nextC o)) c
    -- co_chan.h:386, other.ch__ is null
    | .nextC o => ⟨c, [], [], if c.closed then .next (.nextE o) else .ret (enterLoop o)⟩
    | .nextE o =>
      ⟨c, [], [], if c.data = [] then (match o with | none => .ret .stop | some v => .ret (.item v)) else
        .ret (enterLoop o)⟩
    -- co_chan.h:274-277
    | .close => ⟨{ c with closed := true }, [.closes t], [.all .full, .all .empty], .ret .ok⟩
    | .isClosed => ⟨c, [.saysClosed t c.closed], [], .ret (.told c.closed)⟩
    | .isEmpty => ⟨c, [.saysEmpty t (decide (c.data.length = 0))], [], .ret (.told (decide (c.data.length = 0)))⟩

/-! ## Specification -/

/-- Is there room for one more? (Concerns co_chan.h:21-386.) -/
def room (kd : Kind) (n : Nat) : Bool :=
  match kd with
  | .unlimited => true
  | .sync => n < 1
  | .fixed m => n < m

/-- So many values are within the capacity. (Concerns co_chan.h:21-386.) -/
def fits (kd : Kind) (n : Nat) : Prop :=
  match kd with
  | .unlimited => True
  | .sync => n ≤ 1
  | .fixed m => n ≤ m

/-- `entered i`: the value of this push was the `i`-th to enter. (Concerns co_chan.h:21-386.) -/
inductive QTh (α : Type)
  | idle
  | pushing (v : α)
  | entered (i : Nat)
  | popping
  | looping
  | closing
  | askClosed
  | askEmpty
  | finished (r : Res α)

/-- Contents, closed?, number of values that entered / left. (Concerns co_chan.h:21-386.) -/
structure Q (α : Type) where
  data : List α
  closed : Bool
  nin : Nat
  nout : Nat
  th : Tid → QTh α

/-- A FIFO channel of the given kind. A push succeeds iff its value entered, which needs an open channel with room; on an
unbuffered one it returns only when its value has left or the channel is closed. A value leaves to exactly one popper.
`nullopt` / end of loop only when closed and drained. (Concerns co_chan.h:21-386.) -/
inductive Step {α : Type} (kd : Kind) (q : Q α) : Ev (Op α) (Res α) (Lin α) → Q α → Prop
  | callPush {t : Tid} {v : α} (h : q.th t = .idle) : Step kd q (.call t (.push v)) { q with th := upd q.th t (.pushing v) }
  | callPop {t : Tid} (h : q.th t = .idle) : Step kd q (.call t .pop) { q with th := upd q.th t .popping }
  | callNext {t : Tid} (h : q.th t = .idle) : Step kd q (.call t .next) { q with th := upd q.th t .looping }
  | callClose {t : Tid} (h : q.th t = .idle) : Step kd q (.call t .close) { q with th := upd q.th t .closing }
  | callIsClosed {t : Tid} (h : q.th t = .idle) :
      Step kd q (.call t .isClosed) { q with th := upd q.th t .askClosed }
  | callIsEmpty {t : Tid} (h : q.th t = .idle) : Step kd q (.call t .isEmpty) { q with th := upd q.th t .askEmpty }
  | accepted {t : Tid} {v : α} (h : q.th t = .pushing v) (ho : q.closed = false) (hr : room kd q.data.length = true) :
      Step kd q (.lin (.accepted t v))
        { q with data := q.data ++ [v], nin := q.nin + 1, th := upd q.th t (.entered q.nin) }
  | refused {t : Tid} {v : α} (h : q.th t = .pushing v) (hc : q.closed = true) :
      Step kd q (.lin (.refused t)) { q with th := upd q.th t (.finished (.pushed false)) }
  | got {t : Tid} {v : α} {rest : List α} (h : q.th t = .popping) (hd : q.data = v :: rest) :
      Step kd q (.lin (.got t v))
        { q with data := rest, nout := q.nout + 1, th := upd q.th t (.finished (.popped (some v))) }
  | gotNext {t : Tid} {v : α} {rest : List α} (h : q.th t = .looping) (hd : q.data = v :: rest) :
      Step kd q (.lin (.got t v)) { q with data := rest, nout := q.nout + 1, th := upd q.th t (.finished (.item v)) }
  | drained {t : Tid} (h : q.th t = .popping) (hc : q.closed = true) (hd : q.data = []) :
      Step kd q (.lin (.drained t)) { q with th := upd q.th t (.finished (.popped none)) }
  | drainedNext {t : Tid} (h : q.th t = .looping) (hc : q.closed = true) (hd : q.data = []) :
      Step kd q (.lin (.drained t)) { q with th := upd q.th t (.finished .stop) }
  | closes {t : Tid} (h : q.th t = .closing) :
      Step kd q (.lin (.closes t)) { q with closed := true, th := upd q.th t (.finished .ok) }
  | saysClosed {t : Tid} (h : q.th t = .askClosed) :
      Step kd q (.lin (.saysClosed t q.closed)) { q with th := upd q.th t (.finished (.told q.closed)) }
  | saysEmpty {t : Tid} {b : Bool} (h : q.th t = .askEmpty) (hb : b = true ↔ q.data = []) :
      Step kd q (.lin (.saysEmpty t b)) { q with th := upd q.th t (.finished (.told b)) }
  | retPush {t : Tid} {i : Nat} (h : q.th t = .entered i) (hs : kd = .sync → i < q.nout ∨ q.closed = true) :
      Step kd q (.ret t (.pushed true)) { q with th := upd q.th t .idle }
  | ret {t : Tid} {r : Res α} (h : q.th t = .finished r) : Step kd q (.ret t r) { q with th := upd q.th t .idle }

/-- Specification: the initial state. (Concerns co_chan.h:21-386.) -/
def Q.init {α : Type} : Q α := ⟨[], false, 0, 0, fun _ => .idle⟩

/-- The trace is one of a correct channel of this kind. (Concerns co_chan.h:21-386.) -/
def Correct {α : Type} (kd : Kind) (es : List (Ev (Op α) (Res α) (Lin α))) : Prop := ∃ q, Path (Step kd) Q.init es q

/-- Receiving what nobody sent is not a trace of a correct channel. -/
example : ¬ Correct (α := Nat) .unlimited [.call 1 .pop, .lin (.got 1 7)] := by
  rintro ⟨q, h⟩
  rcases h with _ | ⟨h1, h2⟩
  cases h1
  rcases h2 with _ | ⟨h1, h2⟩
  cases h1 <;> simp_all [Q.init]

end Verif.Chan
