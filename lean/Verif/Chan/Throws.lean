import Verif.Monitor.FullObjs

/-! # co_chan with values whose copying throws (C112)

`include/cocpp/event/co_chan.h` again, for value types whose copy constructor or assignment may throw. The places where the library
copies a value: `push_back(value)` in `push` (co_chan.h:180, 195, 222) and `ret = data__->front()` in `pop` (co_chan.h:259), both with the mutex
held and before the `notify_one`; and the assignment of what `pop` returned to the caller's variable, after the call has returned: in
`operator>` (co_chan.h:141), `operator>>` (co_chan.h:155) and `++it` (co_chan.h:346). Copies of the argument before the mutex is locked change
nothing and are left out. `push_back` gives the strong guarantee: if it throws, the deque is unchanged. -/

namespace Verif.ChanThrow
open Monitor
open Chan (Kind Ch Cv)

/-- Control points. `push v x`: the copy in `push_back` throws if `x`. `pop x y`: the copy out of the channel throws if `x`, the
assignment of the returned value throws if `y`. `pushW`, `popW`: woken in a wait; `syncW`: woken in the second wait of `push` on an
unbuffered channel (co_chan.h:225-227). Which copies throw is the client's (the value type's) business and hence part of the call. -/
inductive Op (α : Type)
  | push (v : α) (x : Bool)
  | pushW (v : α) (x : Bool)
  | syncW
  | pop (x y : Bool)
  | popW (x y : Bool)
  | close
  deriving DecidableEq, Repr

/-- The operations of the public interface (co_chan.h:85-93); the others only occur inside a call. -/
def Op.callable {α : Type} : Op α → Prop
  | .push _ _ | .pop _ _ | .close => True
  | _ => False

/-- Results. `threw`: the exception of a copy made inside the channel reaches the caller. `lost`: the value was taken out of the channel
and the exception of the assignment reaches the caller. (Concerns co_chan.h:85-346.) -/
inductive Res (α : Type)
  | pushed (b : Bool)
  | popped (o : Option α)
  | threw
  | lost
  | ok
  deriving DecidableEq, Repr

/-- `v` enters the channel; a push is refused; `v` leaves; the channel is found drained; a copy throws; the channel is closed. (Concerns co_chan.h:85-346.) -/
inductive Lin (α : Type)
  | accepted (t : Tid) (v : α)
  | refused (t : Tid)
  | got (t : Tid) (v : α)
  | drained (t : Tid)
  | threw (t : Tid)
  | closes (t : Tid)
  deriving DecidableEq, Repr

/-- Abbreviation, no counterpart in the code. (Concerns co_chan.h:85-346.) -/
abbrev O (α : Type) := Out (Ch α) Cv (Op α) (Res α) (Lin α)

/-- `push_back`, `notify_one` (co_chan.h:180-181, 195-196, 222-223), then `f`. If `push_back` throws, the destructor of the `unique_lock`
releases the mutex and the function is left. -/
def enter {α : Type} (t : Tid) (v : α) (x : Bool) (f : Fin Cv (Op α) (Res α)) (c : Ch α) : O α :=
  if x then ⟨c, [.threw t], [], .ret .threw⟩ else ⟨{ c with data := c.data ++ [v] }, [.accepted t v], [.one .empty], f⟩

/-- The result of a `pop` that took `v` out. (Concerns co_chan.h:85-346.) -/
def taken {α : Type} (y : Bool) (v : α) : Res α := if y then .lost else .popped (some v)

/-- `pop`, co_chan.h:242-262; woken or not, an empty open channel means waiting. -/
def popBody {α : Type} (t : Tid) (x y : Bool) (c : Ch α) : O α :=
  match c.data with
  | [] => if c.closed then ⟨c, [.drained t], [], .ret (.popped none)⟩ else ⟨c, [], [], .park .empty (.popW x y)⟩
  | v :: rest =>
    if x then ⟨c, [.threw t], [], .ret .threw⟩ else ⟨{ c with data := rest }, [.got t v], [.one .full], .ret (taken y v)⟩

/-- What follows `push_back` and `notify_one`: on an unbuffered channel the second wait (co_chan.h:225), else the return. -/
def afterEnter {α : Type} : Kind → Fin Cv (Op α) (Res α)
  | .sync => .park .full .syncW
  | _ => .ret (.pushed true)

/-- Does `push` wait at first (co_chan.h:169, 211)? -/
def occupied : Kind → Nat → Bool
  | .unlimited, _ => false
  | .sync, n => n == 1
  | .fixed m, n => n == m

/-- Does a woken `push` go on to `push_back` in an open channel (predicates of co_chan.h:171-173 and 213-215)? On an unlimited channel `push` does
not wait. -/
def mayEnter : Kind → Nat → Bool
  | .unlimited, _ => true
  | .sync, _ => false
  | .fixed m, n => decide (n < m)

/-- The object: `push`, `pop`, `close` (co_chan.h:159-284). -/
def obj {α : Type} (kd : Kind) : Obj (Ch α) Cv (Op α) (Res α) (Lin α) where
  body t k c :=
    match k with
    | .push v x =>
      if c.closed then ⟨c, [.refused t], [], .ret (.pushed false)⟩
      else if occupied kd c.data.length then ⟨c, [], [], .park .full (.pushW v x)⟩
      else enter t v x (afterEnter kd) c
    | .pushW v x =>
      if c.closed then ⟨c, [.refused t], [], .ret (.pushed false)⟩
      else if mayEnter kd c.data.length then enter t v x (afterEnter kd) c
      else ⟨c, [], [], .park .full (.pushW v x)⟩
    | .syncW => if c.closed ∨ c.data = [] then ⟨c, [], [], .ret (.pushed true)⟩ else ⟨c, [], [], .park .full .syncW⟩
    | .pop x y | .popW x y => popBody t x y c
    | .close => ⟨{ c with closed := true }, [.closes t], [.all .full, .all .empty], .ret .ok⟩

/-! ## Specification -/

/-- So many values are within the capacity. (Concerns co_chan.h:85-346.) -/
def fits : Kind → Nat → Prop
  | .unlimited, _ => True
  | .sync, n => n ≤ 1
  | .fixed m, n => n ≤ m

/-- A coroutine in the specification. (Concerns co_chan.h:85-346.) -/
inductive QTh (α : Type)
  | idle
  | pushing (v : α) (x : Bool)
  | popping (x y : Bool)
  | closing
  | finished (r : Res α)

/-- Contents, closed?, coroutines. (Concerns co_chan.h:85-346.) -/
structure Q (α : Type) where
  data : List α
  closed : Bool
  th : Tid → QTh α

/-- A FIFO channel. A call in which a copy throws inside the channel has no effect; it ends with the exception, and there is one only
where a value would have entered or left. A value enters at most once and leaves to one popper, who gets it unless its own assignment
throws. (Concerns co_chan.h:85-346.) -/
inductive Step {α : Type} (kd : Kind) (q : Q α) : Ev (Op α) (Res α) (Lin α) → Q α → Prop
  | callPush {t : Tid} {v : α} {x : Bool} (h : q.th t = .idle) :
      Step kd q (.call t (.push v x)) { q with th := upd q.th t (.pushing v x) }
  | callPop {t : Tid} {x y : Bool} (h : q.th t = .idle) :
      Step kd q (.call t (.pop x y)) { q with th := upd q.th t (.popping x y) }
  | callClose {t : Tid} (h : q.th t = .idle) : Step kd q (.call t .close) { q with th := upd q.th t .closing }
  | accepted {t : Tid} {v : α} (h : q.th t = .pushing v false) (ho : q.closed = false) (hr : fits kd (q.data.length + 1)) :
      Step kd q (.lin (.accepted t v)) { q with data := q.data ++ [v], th := upd q.th t (.finished (.pushed true)) }
  | refused {t : Tid} {v : α} {x : Bool} (h : q.th t = .pushing v x) (hc : q.closed = true) :
      Step kd q (.lin (.refused t)) { q with th := upd q.th t (.finished (.pushed false)) }
  | threwPush {t : Tid} {v : α} (h : q.th t = .pushing v true) (ho : q.closed = false) (hr : fits kd (q.data.length + 1)) :
      Step kd q (.lin (.threw t)) { q with th := upd q.th t (.finished .threw) }
  | got {t : Tid} {v : α} {rest : List α} {y : Bool} (h : q.th t = .popping false y) (hd : q.data = v :: rest) :
      Step kd q (.lin (.got t v)) { q with data := rest, th := upd q.th t (.finished (if y then .lost else .popped (some v))) }
  | threwPop {t : Tid} {y : Bool} (h : q.th t = .popping true y) (hd : q.data ≠ []) :
      Step kd q (.lin (.threw t)) { q with th := upd q.th t (.finished .threw) }
  | drained {t : Tid} {x y : Bool} (h : q.th t = .popping x y) (hc : q.closed = true) (hd : q.data = []) :
      Step kd q (.lin (.drained t)) { q with th := upd q.th t (.finished (.popped none)) }
  | closes {t : Tid} (h : q.th t = .closing) :
      Step kd q (.lin (.closes t)) { q with closed := true, th := upd q.th t (.finished .ok) }
  | ret {t : Tid} {r : Res α} (h : q.th t = .finished r) : Step kd q (.ret t r) { q with th := upd q.th t .idle }

/-- Specification: the initial state. (Concerns co_chan.h:85-346.) -/
def Q.init {α : Type} : Q α := ⟨[], false, fun _ => .idle⟩

/-- Abbreviation for traces, no counterpart in the code. (Concerns co_chan.h:85-346.) -/
abbrev Trace (α : Type) := List (Ev (Op α) (Res α) (Lin α))

/-- The trace is one of a correct channel of this kind. (Concerns co_chan.h:85-346.) -/
def Correct {α : Type} (kd : Kind) (es : Trace α) : Prop := ∃ q, Path (Step kd) Q.init es q

/-- A push that throws and yet puts its value into the channel is not correct. -/
example : ¬ Correct (α := Nat) .unlimited [.call 1 (.push 7 true), .lin (.accepted 1 7)] := by
  rintro ⟨q, h⟩
  rcases h with _ | ⟨h1, h2⟩
  cases h1
  rcases h2 with _ | ⟨h1, h2⟩
  cases h1
  simp_all [Q.init]

section
variable {α : Type} {kd : Kind}

/-- The values that entered the channel, in order. (Concerns co_chan.h:85-346.) -/
def accVals : Trace α → List α
  | [] => []
  | .lin (.accepted _ v) :: es => v :: accVals es
  | _ :: es => accVals es

/-- The values that left the channel, in order. (Concerns co_chan.h:85-346.) -/
def gotVals : Trace α → List α
  | [] => []
  | .lin (.got _ v) :: es => v :: gotVals es
  | _ :: es => gotVals es

/-- The coroutine an event belongs to (specification only). (Concerns co_chan.h:85-346.) -/
def Lin.who : Lin α → Tid
  | .accepted t _ | .refused t | .got t _ | .drained t | .threw t | .closes t => t

/-- What coroutine `t` did, in order. (Concerns co_chan.h:85-346.) -/
def own (t : Tid) : Trace α → List (Lin α)
  | [] => []
  | .lin e :: es => if e.who = t then e :: own t es else own t es
  | _ :: es => own t es

/-- The event that a call with this result stands for. (Concerns co_chan.h:85-346.) -/
inductive Outcome (t : Tid) : Op α → Lin α → Res α → Prop
  | pushTrue (v : α) : Outcome t (.push v false) (.accepted t v) (.pushed true)
  | pushFalse (v : α) (x : Bool) : Outcome t (.push v x) (.refused t) (.pushed false)
  | pushThrew (v : α) : Outcome t (.push v true) (.threw t) .threw
  | popSome (v : α) : Outcome t (.pop false false) (.got t v) (.popped (some v))
  | popLost (v : α) : Outcome t (.pop false true) (.got t v) .lost
  | popNone (x y : Bool) : Outcome t (.pop x y) (.drained t) (.popped none)
  | popThrew (y : Bool) : Outcome t (.pop true y) (.threw t) .threw
  | close : Outcome t .close (.closes t) .ok

/-- The clients call only the public operations. (Concerns co_chan.h:85-346.) -/
def Client (es : Trace α) : Prop := ∀ t k, Ev.call t k ∈ es → Op.callable k

/-- Abbreviation for the states of the atomic machine, no counterpart in the code. (Concerns co_chan.h:85-346.) -/
abbrev AbsSt (α : Type) := Abs (Ch α) Cv (Op α) (Res α)

/-! ## The channel meets the specification -/

/-- Proof device: what the specification says about a coroutine at this point. (Concerns co_chan.h:85-346.) -/
def RK : Op α → QTh α
  | .push v x | .pushW v x => .pushing v x
  | .syncW => .finished (.pushed true)
  | .pop x y | .popW x y => .popping x y
  | .close => .closing

/-- Proof device: how a coroutine of the machine and of the specification correspond. (Concerns co_chan.h:85-346.) -/
def RT : Th Cv (Op α) (Res α) → QTh α
  | .idle => .idle
  | .ready k | .parked _ k => RK k
  | .leaving r => .finished r

/-- Proof device: the simulation relation between machine and specification. (Concerns co_chan.h:85-346.) -/
structure R (kd : Kind) (a : AbsSt α) (q : Q α) : Prop where
  data : q.data = a.sh.data
  closed : q.closed = a.sh.closed
  fit : fits kd a.sh.data.length
  th : ∀ t, q.th t = RT (a.th t)

theorem RT_settle {wq : Cv → List Tid} {u : Tid} {x : Th Cv (Op α) (Res α)} : RT (settle wq u x) = RT x := by
  cases x with
  | parked c k => simp only [settle]; split <;> rfl
  | _ => rfl

theorem R_after {a : AbsSt α} {q q' : Q α} {t : Tid} {k : Op α} {r : O α} (hR : R kd a q)
    (hb : (obj kd).body t k a.sh = r) (hd : q'.data = r.sh.data) (hc : q'.closed = r.sh.closed) (hf : fits kd r.sh.data.length)
    (hth : q'.th = upd q.th t (RT r.fin.th)) : R kd (after (obj kd) a t k) q' := by
  subst hb
  refine ⟨hd, hc, hf, fun u => ?_⟩
  rw [hth]
  by_cases hu : u = t
  · subst hu; rw [upd_same, after_self]
  · rw [upd_other _ _ hu, after_th hu, RT_settle, hR.th]

theorem upd_RT {a : AbsSt α} {q : Q α} {t : Tid} {k : Op α} {y : QTh α} (hR : R kd a q) (ht : a.th t = .ready k) (hy : RK k = y) :
    q.th = upd q.th t y := by
  funext u
  by_cases hu : u = t
  · subst hu; rw [upd_same, hR.th, ht, ← hy]; rfl
  · rw [upd_other _ _ hu]

theorem one_sim {a : AbsSt α} {q q' : Q α} {t : Tid} {k : Op α} {c : Ch α} {e : Lin α} {l : List (Sig Cv)}
    {f : Fin Cv (Op α) (Res α)} (hR : R kd a q) (hst : Step kd q (.lin e) q') (hb : (obj kd).body t k a.sh = ⟨c, [e], l, f⟩)
    (hd : q'.data = c.data) (hc : q'.closed = c.closed) (hf : fits kd c.data.length) (hth : q'.th = upd q.th t (RT f.th)) :
    ∃ q', Path (Step kd) q (((obj kd).body t k a.sh).ev.map .lin) q' ∧ R kd (after (obj kd) a t k) q' :=
  ⟨q', by rw [hb]; exact .one hst, R_after hR hb hd hc hf hth⟩

theorem popBody_sim {a : AbsSt α} {q : Q α} {t : Tid} {k : Op α} {x y : Bool} (hR : R kd a q) (ht : a.th t = .ready k)
    (hk : RK k = .popping x y) (hb : (obj kd).body t k a.sh = popBody t x y a.sh) :
    ∃ q', Path (Step kd) q (((obj kd).body t k a.sh).ev.map .lin) q' ∧ R kd (after (obj kd) a t k) q' := by
  have hq : q.th t = .popping x y := by rw [hR.th, ht]; exact hk
  have hfit := hR.fit
  cases hd : a.sh.data with
  | nil =>
    cases hc : a.sh.closed with
    | true =>
      have hb' := hb; simp only [popBody, hd, hc, if_true] at hb'
      exact one_sim hR (.drained hq (by rw [hR.closed, hc]) (by rw [hR.data, hd])) hb' hR.data hR.closed hfit rfl
    | false =>
      have hb' := hb; simp only [popBody, hd, hc, Bool.false_eq_true, if_false] at hb'
      exact ⟨q, by rw [hb']; exact .nil _, R_after hR hb' hR.data hR.closed hfit (upd_RT hR ht hk)⟩
  | cons v rest =>
    cases x with
    | true =>
      have hb' := hb; simp only [popBody, hd, if_true] at hb'
      exact one_sim hR (.threwPop hq (by rw [hR.data, hd]; simp)) hb' hR.data hR.closed hfit rfl
    | false =>
      have hb' := hb; simp only [popBody, hd, Bool.false_eq_true, if_false] at hb'
      refine one_sim hR (.got hq (by rw [hR.data, hd])) hb' rfl hR.closed ?_ ?_
      · rw [hd] at hfit
        cases kd <;> simp_all [fits]
        omega
      · cases y <;> rfl

theorem enter_sim {a : AbsSt α} {q : Q α} {t : Tid} {k : Op α} {v : α} {x : Bool} (hR : R kd a q) (ht : a.th t = .ready k)
    (hk : RK k = .pushing v x) (hc : a.sh.closed = false) (hf : fits kd (a.sh.data.length + 1))
    (hb : (obj kd).body t k a.sh = enter t v x (afterEnter kd) a.sh) :
    ∃ q', Path (Step kd) q (((obj kd).body t k a.sh).ev.map .lin) q' ∧ R kd (after (obj kd) a t k) q' := by
  have hq : q.th t = .pushing v x := by rw [hR.th, ht]; exact hk
  cases x with
  | true =>
    have hb' := hb; simp only [enter, if_true] at hb'
    exact one_sim hR (.threwPush hq (by rw [hR.closed, hc]) (by rw [hR.data]; exact hf)) hb' hR.data hR.closed hR.fit rfl
  | false =>
    have hb' := hb; simp only [enter, Bool.false_eq_true, if_false] at hb'
    refine one_sim hR (.accepted hq (by rw [hR.closed, hc]) (by rw [hR.data]; exact hf)) hb' (by simp [hR.data]) hR.closed
      (by simpa using hf) ?_
    cases kd <;> rfl

theorem refused_sim {a : AbsSt α} {q : Q α} {t : Tid} {k : Op α} {v : α} {x : Bool} (hR : R kd a q) (ht : a.th t = .ready k)
    (hk : RK k = .pushing v x) (hc : a.sh.closed = true)
    (hb : (obj kd).body t k a.sh = ⟨a.sh, [.refused t], [], .ret (.pushed false)⟩) :
    ∃ q', Path (Step kd) q (((obj kd).body t k a.sh).ev.map .lin) q' ∧ R kd (after (obj kd) a t k) q' := by
  have hq : q.th t = .pushing v x := by rw [hR.th, ht]; exact hk
  exact one_sim hR (.refused hq (by rw [hR.closed, hc])) hb hR.data hR.closed hR.fit rfl

theorem wait_sim {a : AbsSt α} {q : Q α} {t : Tid} {k : Op α} {f : Fin Cv (Op α) (Res α)} (hR : R kd a q) (ht : a.th t = .ready k)
    (hk : RK k = RT f.th) (hb : (obj kd).body t k a.sh = ⟨a.sh, [], [], f⟩) :
    ∃ q', Path (Step kd) q (((obj kd).body t k a.sh).ev.map .lin) q' ∧ R kd (after (obj kd) a t k) q' :=
  ⟨q, by rw [hb]; exact .nil _, R_after hR hb hR.data hR.closed hR.fit (upd_RT hR ht hk)⟩

theorem sim (a : AbsSt α) (x : AAct (Op α)) (a' : AbsSt α) (es : Trace α) (q : Q α) (hR : R kd a q)
    (hP : ∀ t k, x = .call t k → Op.callable k) (hs : a.step (obj kd) x = some (a', es)) :
    ∃ q', Path (Step kd) q es q' ∧ R kd a' q' := by
  have hset : ∀ (t : Tid) (y : Th Cv (Op α) (Res α)),
      R kd { a with th := upd a.th t y } { q with th := upd q.th t (RT y) } := fun t y =>
    ⟨hR.data, hR.closed, hR.fit, fun u => by by_cases hu : u = t <;> simp [hu, hR.th]⟩
  cases x with
  | call t k =>
    obtain ⟨ht, rfl, rfl⟩ := call_inv hs
    have hq : q.th t = .idle := by rw [hR.th, ht]; rfl
    refine ⟨_, ?_, hset t (.ready k)⟩
    have := hP t k rfl
    cases k with
    | push v x => exact .one (.callPush hq)
    | pop x y => exact .one (.callPop hq)
    | close => exact .one (.callClose hq)
    | _ => exact absurd this (by simp [Op.callable])
  | leave t =>
    obtain ⟨v, ht, rfl, rfl⟩ := leave_inv hs
    have hq : q.th t = .finished v := by rw [hR.th, ht]; rfl
    exact ⟨_, .one (.ret hq), hset t .idle⟩
  | run t =>
    obtain ⟨k, ht, rfl, rfl⟩ := run_inv hs
    have hfit := hR.fit
    cases k with
    | push v x =>
      cases hc : a.sh.closed with
      | true => exact refused_sim hR ht rfl hc (by simp [obj, hc])
      | false =>
        cases ho : occupied kd a.sh.data.length with
        | true => exact wait_sim hR ht (f := .park .full (.pushW v x)) rfl (by simp [obj, hc, ho])
        | false =>
          refine enter_sim hR ht rfl hc ?_ (by simp [obj, hc, ho])
          cases kd with
          | unlimited => trivial
          | sync => simp only [occupied, beq_eq_false_iff_ne, fits] at *; omega
          | fixed m => simp only [occupied, beq_eq_false_iff_ne, fits] at *; omega
    | pushW v x =>
      cases hc : a.sh.closed with
      | true => exact refused_sim hR ht rfl hc (by simp [obj, hc])
      | false =>
        cases ho : mayEnter kd a.sh.data.length with
        | false => exact wait_sim hR ht (f := .park .full (.pushW v x)) rfl (by simp [obj, hc, ho])
        | true =>
          refine enter_sim hR ht rfl hc ?_ (by simp [obj, hc, ho])
          cases kd with
          | unlimited => trivial
          | sync => simp [mayEnter] at ho
          | fixed m => simp only [mayEnter, decide_eq_true_eq, fits] at *; omega
    | syncW =>
      by_cases hc : a.sh.closed = true ∨ a.sh.data = []
      · exact wait_sim hR ht (f := .ret (.pushed true)) rfl (by simp [obj, hc])
      · exact wait_sim hR ht (f := .park .full .syncW) rfl (by simp [obj, hc])
    | pop x y => exact popBody_sim hR ht rfl rfl
    | popW x y => exact popBody_sim hR ht rfl rfl
    | close =>
      have hq : q.th t = .closing := by rw [hR.th, ht]; rfl
      exact one_sim hR (.closes hq) rfl hR.data rfl hR.fit rfl

theorem sim_reach (as : List (Act (Op α))) (s : Low (Ch α) Cv (Op α) (Res α)) (es : Trace α)
    (h : runs (Low.step (obj kd)) (Low.init Ch.init) as = some (s, es)) (hP : Client es) :
    ∃ q, Path (Step kd) Q.init es q ∧ R kd s.abs q :=
  abs_path_cl (obj kd) (fun _ k => Op.callable k) (Step kd) Ch.init Q.init (R kd)
    ⟨rfl, rfl, by cases kd <;> simp [fits, Abs.init, Ch.init], fun _ => rfl⟩
    (fun a x a' es q _ hR hc hs => sim a x a' es q hR hc hs) as s es h hP

/-! ## Consequences of the specification -/

theorem accVals_append (es fs : Trace α) : accVals (es ++ fs) = accVals es ++ accVals fs := by
  induction es with
  | nil => rfl
  | cons e es ih =>
    rcases e with _ | e | _
    · simp [accVals, ih]
    · cases e <;> simp [accVals, ih]
    · simp [accVals, ih]

theorem gotVals_append (es fs : Trace α) : gotVals (es ++ fs) = gotVals es ++ gotVals fs := by
  induction es with
  | nil => rfl
  | cons e es ih =>
    rcases e with _ | e | _
    · simp [gotVals, ih]
    · cases e <;> simp [gotVals, ih]
    · simp [gotVals, ih]

theorem own_append (t : Tid) (es fs : Trace α) : own t (es ++ fs) = own t es ++ own t fs := by
  induction es with
  | nil => rfl
  | cons e es ih =>
    rcases e with _ | e | _ <;> simp only [List.cons_append, own, ih]
    split <;> simp

theorem path_vals {q q' : Q α} {es : Trace α} (h : Path (Step kd) q es q') :
    q.data ++ accVals es = gotVals es ++ q'.data := by
  induction h with
  | nil => simp [accVals, gotVals]
  | @cons q q1 q2 e es h hs ih =>
    have ha : accVals (e :: es) = accVals [e] ++ accVals es := accVals_append [e] es
    have hg : gotVals (e :: es) = gotVals [e] ++ gotVals es := gotVals_append [e] es
    have h1 : q.data ++ accVals [e] = gotVals [e] ++ q1.data := by cases h <;> simp_all [accVals, gotVals]
    rw [ha, hg, ← List.append_assoc, h1, List.append_assoc, ih, List.append_assoc]

/-- Proof device: in the middle of call `k`, having done `L`. (Concerns co_chan.h:85-346.) -/
def Mid (t : Tid) (k : Op α) (L : List (Lin α)) (q : Q α) : Prop :=
  (L = [] ∧ q.th t = RK k ∧ Op.callable k) ∨ ∃ e r, L = [e] ∧ Outcome t k e r ∧ q.th t = .finished r

theorem mid_step {t : Tid} {k : Op α} {L : List (Lin α)} {q q' : Q α} {e : Ev (Op α) (Res α) (Lin α)}
    (h : Step kd q e q') (hm : Mid t k L q) (hr : ∀ r, e ≠ .ret t r) : Mid t k (L ++ own t [e]) q' := by
  have other : ∀ x y, x ≠ t → q'.th = upd q.th x y → own t [e] = [] → Mid t k (L ++ own t [e]) q' := by
    intro x y hx hth ho
    rw [ho, List.append_nil]
    have : q'.th t = q.th t := by rw [hth, upd_other _ _ (Ne.symm hx)]
    simpa only [Mid, this] using hm
  have called : ∀ y, q.th t = .idle → Mid t k (L ++ own t [e]) y := by
    intro y hi
    rcases hm with ⟨_, h1, h2⟩ | ⟨_, _, _, _, h1⟩
    · rw [hi] at h1; cases k <;> simp [RK, Op.callable] at h1 h2
    · rw [hi] at h1; cases h1
  have done : ∀ y (l : Lin α) r, q.th t = y → (∀ r, y ≠ .finished r) → own t [e] = [l] →
      (∀ k, Op.callable k → RK k = y → Outcome t k l r) → q'.th t = .finished r → Mid t k (L ++ own t [e]) q' := by
    intro y l r hy hny ho hk hq
    rcases hm with ⟨rfl, h1, h2⟩ | ⟨_, _, _, _, h1⟩
    · exact Or.inr ⟨l, r, by rw [ho]; rfl, hk k h2 (by rw [← h1, hy]), hq⟩
    · rw [hy] at h1; exact absurd h1 (hny _)
  have who : ∀ l : Lin α, e = .lin l → l.who ≠ t → own t [e] = [] := by
    rintro l rfl hl; simp [own, hl]
  have whot : ∀ l : Lin α, e = .lin l → l.who = t → own t [e] = [l] := by
    rintro l rfl hl; simp [own, hl]
  cases h with
  | @callPush x _ _ h =>
    by_cases hx : x = t
    · subst hx; exact called _ h
    · exact other x _ hx rfl rfl
  | @callPop x _ _ h =>
    by_cases hx : x = t
    · subst hx; exact called _ h
    · exact other x _ hx rfl rfl
  | @callClose x h =>
    by_cases hx : x = t
    · subst hx; exact called _ h
    · exact other x _ hx rfl rfl
  | @accepted x v h ho hf =>
    by_cases hx : x = t
    · subst hx
      refine done _ (.accepted x v) (.pushed true) h (by simp) (whot _ rfl rfl) (fun k hk hk' => ?_) (by simp)
      cases k <;> simp_all [RK, Op.callable]; exact .pushTrue _
    · exact other x _ hx rfl (who _ rfl hx)
  | @refused x v b h hc =>
    by_cases hx : x = t
    · subst hx
      refine done _ (.refused x) (.pushed false) h (by simp) (whot _ rfl rfl) (fun k hk hk' => ?_) (by simp)
      cases k <;> simp_all [RK, Op.callable]; exact .pushFalse _ _
    · exact other x _ hx rfl (who _ rfl hx)
  | @threwPush x v h ho hf =>
    by_cases hx : x = t
    · subst hx
      refine done _ (.threw x) .threw h (by simp) (whot _ rfl rfl) (fun k hk hk' => ?_) (by simp)
      cases k <;> simp_all [RK, Op.callable]; exact .pushThrew _
    · exact other x _ hx rfl (who _ rfl hx)
  | @got x v rest y h hd =>
    by_cases hx : x = t
    · subst hx
      refine done _ (.got x v) _ h (by simp) (whot _ rfl rfl) (fun k hk hk' => ?_) (by simp; rfl)
      cases k <;> simp_all [RK, Op.callable]
      cases y
      · exact .popSome _
      · exact .popLost _
    · exact other x _ hx rfl (who _ rfl hx)
  | @threwPop x y h hd =>
    by_cases hx : x = t
    · subst hx
      refine done _ (.threw x) .threw h (by simp) (whot _ rfl rfl) (fun k hk hk' => ?_) (by simp)
      cases k <;> simp_all [RK, Op.callable]; exact .popThrew _
    · exact other x _ hx rfl (who _ rfl hx)
  | @drained x a b h hc hd =>
    by_cases hx : x = t
    · subst hx
      refine done _ (.drained x) (.popped none) h (by simp) (whot _ rfl rfl) (fun k hk hk' => ?_) (by simp)
      cases k <;> simp_all [RK, Op.callable]; exact .popNone _ _
    · exact other x _ hx rfl (who _ rfl hx)
  | @closes x h =>
    by_cases hx : x = t
    · subst hx
      refine done _ (.closes x) .ok h (by simp) (whot _ rfl rfl) (fun k hk hk' => ?_) (by simp)
      cases k <;> simp_all [RK, Op.callable]; exact .close
    · exact other x _ hx rfl (who _ rfl hx)
  | @ret x r h =>
    by_cases hx : x = t
    · subst hx; exact absurd rfl (hr _)
    · exact other x _ hx rfl rfl

theorem mid_path {t : Tid} {k : Op α} {L : List (Lin α)} {q q' : Q α} {es : Trace α}
    (h : Path (Step kd) q es q') (hm : Mid t k L q) (hr : ∀ r, .ret t r ∉ es) : Mid t k (L ++ own t es) q' := by
  induction h generalizing L with
  | nil => simpa [own] using hm
  | @cons q q1 q2 e es h hs ih =>
    have h1 := mid_step h hm (fun r he => hr r (by simp [he]))
    have h2 := ih h1 (fun r hm => hr r (by simp [hm]))
    rwa [List.append_assoc, ← own_append, List.singleton_append] at h2

theorem matched {t : Tid} {k : Op α} {r : Res α} {q q' : Q α} {mid : Trace α}
    (h : Path (Step kd) q (.call t k :: mid ++ [.ret t r]) q') (hr : ∀ r, .ret t r ∉ mid) :
    ∃ e, own t mid = [e] ∧ Outcome t k e r := by
  rw [List.cons_append] at h
  cases h with
  | @cons _ q1 _ _ _ h1 h2 =>
    obtain ⟨q2, h3, h4⟩ := h2.split
    have hm : Mid t k [] q1 := by
      refine Or.inl ⟨rfl, ?_⟩
      cases h1 <;> simp [RK, Op.callable]
    have h5 := mid_path h3 hm hr
    rw [List.nil_append] at h5
    cases h4 with
    | cons h4 _ =>
      cases h4 with
      | ret h9 =>
        rcases h5 with ⟨_, h7, h8⟩ | ⟨e, r', h6, h7, h8⟩
        · exfalso; rw [h7] at h9; cases k <;> simp [RK, Op.callable] at h9 h8
        · rw [h8] at h9; cases h9; exact ⟨e, h6, h7⟩

/-! ## Waiting -/

/-- Proof device: who may make calls in which a copy throws. (Concerns co_chan.h:85-346.) -/
inductive Mode
  | never
  | one (c : Tid)
  | any

/-- Proof device: `t` may make a call with throwing `x`. (Concerns co_chan.h:85-346.) -/
def Mode.ok : Mode → Tid → Bool → Prop
  | .never, _, x => x = false
  | .one c, t, _ => t = c
  | .any, _, _ => True

/-- Proof device: the calls that the modes for poppers and pushers admit. (Concerns co_chan.h:85-346.) -/
def ok (m n : Mode) (t : Tid) : Op α → Prop
  | .pop x _ | .popW x _ => m.ok t x
  | .push _ x | .pushW _ x => n.ok t x
  | .syncW => False
  | .close => True

/-- Points at which a coroutine woken from `cv_empty__` continues. (Concerns co_chan.h:85-346.) -/
def popper : Op α → Prop
  | .popW _ _ => True
  | _ => False

/-- Points at which a coroutine woken from the first wait of `push` continues. (Concerns co_chan.h:85-346.) -/
def pusher : Op α → Prop
  | .pushW _ _ => True
  | _ => False

/-- What a section of a channel that is not unbuffered can do. (Concerns co_chan.h:85-346.) -/
inductive Does (kd : Kind) (k : Op α) (c : Ch α) (r : O α) : Prop
  | enter (v : α) (hk : k = .push v false ∨ k = .pushW v false) (hc : c.closed = false)
      (hsh : r.sh = { c with data := c.data ++ [v] }) (hs : r.sigs = [.one .empty]) (hf : ∀ d j, r.fin ≠ .park d j)
      (hn : ∀ j, r.fin ≠ .next j)
  | take (v : α) (rest : List α) (hd : c.data = v :: rest) (hk : ¬ pusher k) (hsh : r.sh = { c with data := rest })
      (hs : r.sigs = [.one .full]) (hf : ∀ d j, r.fin ≠ .park d j) (hn : ∀ j, r.fin ≠ .next j)
  | parkE (x y : Bool) (hk : k = .pop x y ∨ k = .popW x y) (hd : c.data = []) (hc : c.closed = false) (hsh : r.sh = c)
      (hs : r.sigs = []) (hf : r.fin = .park .empty (.popW x y))
  | parkF (v : α) (x : Bool) (m : Nat) (hk : k = .push v x ∨ k = .pushW v x) (hm : kd = .fixed m) (hc : c.closed = false)
      (hd : m ≤ c.data.length) (hsh : r.sh = c) (hs : r.sigs = []) (hf : r.fin = .park .full (.pushW v x))
  | quiet (hk : ∀ x y, k = .popW x y → c.closed = true ∨ x = true) (hk2 : ∀ v x, k = .pushW v x → c.closed = true ∨ x = true)
      (hsh : r.sh = c) (hs : r.sigs = []) (hf : ∀ d j, r.fin ≠ .park d j) (hn : ∀ j, r.fin ≠ .next j)
  | close (hsh : r.sh = { c with closed := true }) (hs : r.sigs = [.all .full, .all .empty])
      (hf : ∀ d j, r.fin ≠ .park d j) (hn : ∀ j, r.fin ≠ .next j)

theorem afterEnter_ret (hns : kd ≠ .sync) : (afterEnter kd : Fin Cv (Op α) (Res α)) = .ret (.pushed true) := by
  cases kd <;> first | rfl | exact absurd rfl hns

theorem enter_does (hns : kd ≠ .sync) (t : Tid) (k : Op α) (v : α) (x : Bool) (c : Ch α) (hk : k = .push v x ∨ k = .pushW v x)
    (hc : c.closed = false) : Does kd k c (enter t v x (afterEnter kd) c) := by
  rw [afterEnter_ret hns]
  cases x with
  | true => exact .quiet (by rcases hk with rfl | rfl <;> simp) (by rcases hk with rfl | rfl <;> simp) rfl rfl (by simp [enter]) (by simp [enter])
  | false => exact .enter v hk hc rfl rfl (by simp [enter]) (by simp [enter])

theorem popBody_does (t : Tid) (k : Op α) (x y : Bool) (c : Ch α) (hk : k = .pop x y ∨ k = .popW x y) :
    Does kd k c (popBody t x y c) := by
  obtain ⟨data, closed⟩ := c
  cases data with
  | nil =>
    cases closed with
    | true => exact .quiet (by simp) (by simp) rfl rfl (by simp [popBody]) (by simp [popBody])
    | false => exact .parkE x y hk rfl rfl rfl rfl rfl
  | cons v rest =>
    cases x with
    | true =>
      exact .quiet (by rcases hk with rfl | rfl <;> simp) (by rcases hk with rfl | rfl <;> simp) rfl rfl (by simp [popBody])
        (by simp [popBody])
    | false =>
      exact .take v rest rfl (by rcases hk with rfl | rfl <;> simp [pusher]) rfl rfl (by simp [popBody]) (by simp [popBody])

theorem does (hns : kd ≠ .sync) (t : Tid) (k : Op α) (hk : k ≠ .syncW) (c : Ch α) :
    Does kd k c ((obj kd).body t k c) := by
  cases k with
  | push v x =>
    cases hc : c.closed with
    | true =>
      have hb : (obj kd).body t (.push v x) c = ⟨c, [.refused t], [], .ret (.pushed false)⟩ := by simp [obj, hc]
      rw [hb]
      exact .quiet (by simp) (by simp) rfl rfl (by simp) (by simp)
    | false =>
      cases ho : occupied kd c.data.length with
      | true =>
        have hb : (obj kd).body t (.push v x) c = ⟨c, [], [], .park .full (.pushW v x)⟩ := by simp [obj, hc, ho]
        rw [hb]
        cases kd with
        | unlimited => simp [occupied] at ho
        | sync => exact absurd rfl hns
        | fixed m => exact .parkF v x m (.inl rfl) rfl hc (by simp [occupied] at ho; omega) rfl rfl rfl
      | false =>
        have hb : (obj kd).body t (.push v x) c = enter t v x (afterEnter kd) c := by simp [obj, hc, ho]
        rw [hb]
        exact enter_does hns t _ v x c (.inl rfl) hc
  | pushW v x =>
    cases hc : c.closed with
    | true =>
      have hb : (obj kd).body t (.pushW v x) c = ⟨c, [.refused t], [], .ret (.pushed false)⟩ := by simp [obj, hc]
      rw [hb]
      exact .quiet (by simp) (by simp [hc]) rfl rfl (by simp) (by simp)
    | false =>
      cases ho : mayEnter kd c.data.length with
      | false =>
        have hb : (obj kd).body t (.pushW v x) c = ⟨c, [], [], .park .full (.pushW v x)⟩ := by simp [obj, hc, ho]
        rw [hb]
        cases kd with
        | unlimited => simp [mayEnter] at ho
        | sync => exact absurd rfl hns
        | fixed m => exact .parkF v x m (.inr rfl) rfl hc (by simp [mayEnter] at ho; omega) rfl rfl rfl
      | true =>
        have hb : (obj kd).body t (.pushW v x) c = enter t v x (afterEnter kd) c := by simp [obj, hc, ho]
        rw [hb]
        exact enter_does hns t _ v x c (.inr rfl) hc
  | syncW => exact absurd rfl hk
  | pop x y => exact popBody_does t _ x y c (.inl rfl)
  | popW x y => exact popBody_does t _ x y c (.inr rfl)
  | close => exact .close rfl rfl (by simp [obj]) (by simp [obj])

/-- Proof device: who waits where, and that for every value (every free place) somebody is on its way as long as others wait. (Concerns co_chan.h:85-346.) -/
structure Live (kd : Kind) (m n : Mode) (a : AbsSt α) : Prop where
  ok : ∀ u k, (a.th u = .ready k ∨ ∃ c, a.th u = .parked c k) → ok m n u k
  kindE : ∀ u j, a.th u = .parked .empty j → popper j
  kindF : ∀ u j, a.th u = .parked .full j → pusher j ∧ ∃ p, kd = .fixed p
  acq : a.wq .empty ≠ [] → a.sh.closed = false ∧ Promise a popper a.sh.data.length
  rel : ∀ p, kd = .fixed p → a.wq .full ≠ [] → a.sh.closed = false ∧ Promise a pusher (p - a.sh.data.length)

theorem kind_after {a : AbsSt α} {t : Tid} {k : Op α} {c : Cv} {p : Op α → Prop} (h : ∀ u j, a.th u = .parked c j → p j)
    (hf : ∀ j, ((obj kd).body t k a.sh).fin = .park c j → p j) (u : Tid) (j : Op α)
    (hu : (after (obj kd) a t k).th u = .parked c j) : p j := by
  by_cases hut : u = t
  · subst hut
    rw [after_self] at hu
    apply hf
    cases hx : ((obj kd).body u k a.sh).fin <;> simp_all [Fin.th]
  · exact h u j (after_parked hut hu).1

theorem frame_kind {a : AbsSt α} {t : Tid} {x : Th Cv (Op α) (Res α)} {c : Cv} {p : Op α → Prop}
    (h : ∀ u j, a.th u = .parked c j → p j) (hx : ∀ j, x ≠ .parked c j) (u : Tid) (j : Op α)
    (hu : upd a.th t x u = .parked c j) : p j := by
  by_cases hut : u = t
  · subst hut; rw [upd_same] at hu; exact absurd hu (hx j)
  · rw [upd_other _ _ hut] at hu; exact h u j hu

theorem ok_after {m n : Mode} {a : AbsSt α} {t : Tid} {k : Op α}
    (h : ∀ u k, (a.th u = .ready k ∨ ∃ c, a.th u = .parked c k) → ok m n u k)
    (hf : ∀ c j, ((obj kd).body t k a.sh).fin = .park c j → ok m n t j) (hn : ∀ j, ((obj kd).body t k a.sh).fin ≠ .next j)
    (u : Tid) (j : Op α) (hu : (after (obj kd) a t k).th u = .ready j ∨ ∃ c, (after (obj kd) a t k).th u = .parked c j) :
    ok m n u j := by
  by_cases hut : u = t
  · subst hut
    rw [after_self] at hu
    cases hx : ((obj kd).body u k a.sh).fin with
    | ret v => simp [hx, Fin.th] at hu
    | next i => exact absurd hx (hn i)
    | park c i => simp [hx, Fin.th] at hu; subst hu; exact hf c _ hx
  · rw [after_th hut] at hu
    apply h u j
    cases hx : a.th u with
    | parked d i =>
      simp only [hx, settle] at hu
      split at hu <;> simp_all
    | _ => simp_all [settle]

theorem wq_close {a : AbsSt α} {t : Tid} {k : Op α} {o : Obj (Ch α) Cv (Op α) (Res α) (Lin α)}
    (hs : (o.body t k a.sh).sigs = [.all .full, .all .empty])
    (hf : ∀ d j, (o.body t k a.sh).fin ≠ .park d j) (c : Cv) : (after o a t k).wq c = [] := by
  have : (after o a t k).wq = enqueue (notify (notify a.wq (.all .full)) (.all .empty)) t (o.body t k a.sh).fin := by
    simp [after, hs]
  rw [this]
  cases h : (o.body t k a.sh).fin with
  | park d j => exact absurd h (hf d j)
  | _ => cases c <;> simp [enqueue, notify, setC]

/-- If only one coroutine may throw there, nobody else waits when it is about to go on. -/
theorem alone {a : AbsSt α} {t : Tid} {k : Op α} {c : Cv} (hw : a.Wf) (ht : a.th t = .ready k)
    (h : ∀ u j, a.th u = .parked c j → u = t) : a.wq c = [] := by
  cases hq : a.wq c with
  | nil => rfl
  | cons u l =>
    obtain ⟨j, hj⟩ := (hw.mem c u).1 (by simp [hq])
    rw [h u j hj, ht] at hj
    cases hj

theorem live_step (hns : kd ≠ .sync) {m n : Mode} (hm : m ≠ .any) (hn : ∀ p, kd = .fixed p → n ≠ .any) (a : AbsSt α)
    (x : AAct (Op α)) (a' : AbsSt α) (es : Trace α) (hw : a.Wf) (hL : Live kd m n a)
    (hP : ∀ t k, x = .call t k → Op.callable k ∧ ok m n t k) (hs : a.step (obj kd) x = some (a', es)) : Live kd m n a' := by
  have frame : ∀ (t : Tid) (y : Th Cv (Op α) (Res α)), (∀ j, a.th t ≠ .ready j) → (∀ c j, y ≠ .parked c j) →
      (∀ j, y = .ready j → ok m n t j) → Live kd m n { a with th := upd a.th t y } := by
    intro t y ht hy ho
    refine ⟨fun u k hu => ?_, frame_kind hL.kindE (hy _), frame_kind hL.kindF (hy _),
      fun h => ⟨(hL.acq h).1, (hL.acq h).2.frame ht⟩, fun p hp h => ⟨(hL.rel p hp h).1, (hL.rel p hp h).2.frame ht⟩⟩
    by_cases hut : u = t
    · subst hut
      simp only [upd_same] at hu
      rcases hu with hu | ⟨c, hu⟩
      · exact ho k hu
      · exact absurd hu (hy c k)
    · simp only [upd_other _ _ hut] at hu; exact hL.ok u k hu
  cases x with
  | call t k =>
    obtain ⟨ht, rfl, _⟩ := call_inv hs
    exact frame t _ (by simp [ht]) (by simp) (fun j hj => by cases hj; exact (hP t k rfl).2)
  | leave t =>
    obtain ⟨v, ht, rfl, _⟩ := leave_inv hs
    exact frame t _ (by simp [ht]) (by simp) (by simp)
  | run t =>
    obtain ⟨k, ht, rfl, _⟩ := run_inv hs
    have hsh : (after (obj kd) a t k).sh = ((obj kd).body t k a.sh).sh := rfl
    have hok := hL.ok t k (.inl ht)
    have hks : k ≠ .syncW := by rintro rfl; exact hok
    -- a popper (pusher) that throws is the only one
    have hE : ∀ y, k = .popW true y → a.wq .empty = [] := by
      rintro y rfl
      cases m with
      | never => simp [ok, Mode.ok] at hok
      | any => exact absurd rfl hm
      | one c =>
        refine alone hw ht (fun u j hu => ?_)
        have h1 := hL.kindE u j hu
        have h2 := hL.ok u j (.inr ⟨_, hu⟩)
        cases j <;> simp_all [popper, ok, Mode.ok]
    have hF : ∀ v, k = .pushW v true → a.wq .full = [] := by
      rintro v rfl
      refine alone hw ht (fun u j hu => ?_)
      obtain ⟨h1, p, hp⟩ := hL.kindF u j hu
      have h2 := hL.ok u j (.inr ⟨_, hu⟩)
      cases n with
      | never => simp [ok, Mode.ok] at hok
      | any => exact absurd rfl (hn p hp)
      | one c => cases j <;> simp_all [pusher, ok, Mode.ok]
    cases does hns t k hks a.sh with
    | enter v hk hc hd hs hf hn' =>
      have hnk : ¬ popper k := by rcases hk with rfl | rfl <;> simp [popper]
      have hE' : (after (obj kd) a t k).wq .empty = (a.wq .empty).tail := by rw [wq_one hs hf]; simp
      have hF' : (after (obj kd) a t k).wq .full = a.wq .full := by rw [wq_one hs hf]; simp [setC]
      refine ⟨ok_after hL.ok (fun c j h => absurd h (hf _ _)) hn', kind_after hL.kindE (fun j h => absurd h (hf _ _)),
        kind_after hL.kindF (fun j h => absurd h (hf _ _)), fun h => ?_, fun p hp h => ?_⟩
      · rw [hsh, hd]
        refine ⟨hc, ?_⟩
        rw [hE'] at h
        cases hq : a.wq .empty with
        | nil => simp [hq] at h
        | cons u rest =>
          simp only [List.length_append, List.length_cons, List.length_nil]
          exact ((hL.acq (by simp [hq])).2.wake hw ht hnk (u := u) (c := .empty) (by simp [hq])
            (by rw [hE']; exact head_not_tail hw hq) hL.kindE).mono (by push_cast; omega)
      · rw [hF'] at h
        rw [hsh, hd]
        refine ⟨hc, ((hL.rel p hp h).2.drop (o := obj kd) (t := t) (k := k)).mono ?_⟩
        simp only [List.length_append, List.length_cons, List.length_nil]; push_cast; omega
    | take v rest hd hk hd' hs hf hn' =>
      have hE' : (after (obj kd) a t k).wq .empty = a.wq .empty := by rw [wq_one hs hf]; simp [setC]
      have hF' : (after (obj kd) a t k).wq .full = (a.wq .full).tail := by rw [wq_one hs hf]; simp
      refine ⟨ok_after hL.ok (fun c j h => absurd h (hf _ _)) hn', kind_after hL.kindE (fun j h => absurd h (hf _ _)),
        kind_after hL.kindF (fun j h => absurd h (hf _ _)), fun h => ?_, fun p hp h => ?_⟩
      · rw [hE'] at h
        rw [hsh, hd']
        refine ⟨(hL.acq h).1, ((hL.acq h).2.drop (o := obj kd) (t := t) (k := k)).mono ?_⟩
        rw [hd]; simp
      · rw [hsh, hd']
        rw [hF'] at h
        cases hq : a.wq .full with
        | nil => simp [hq] at h
        | cons u rest' =>
          have h0 := hL.rel p hp (by simp [hq])
          refine ⟨h0.1, (h0.2.wake hw ht hk (u := u) (c := .full) (by simp [hq])
              (by rw [hF']; exact head_not_tail hw hq) (fun u j h => (hL.kindF u j h).1)).mono ?_⟩
          rw [hd]; simp only [List.length_cons]; push_cast; omega
    | parkE x y hk hd hc hd' hs hf =>
      have hF' : (after (obj kd) a t k).wq .full = a.wq .full := by rw [wq_park hs hf]; simp [setC]
      have hkp : ¬ pusher k := by rcases hk with rfl | rfl <;> simp [pusher]
      refine ⟨ok_after hL.ok (fun c j h => ?_) (by rw [hf]; simp), kind_after hL.kindE (fun j h => ?_),
        kind_after hL.kindF (fun j h => ?_), fun h => ?_, fun p hp h => ?_⟩
      · rw [hf] at h; cases h; rcases hk with rfl | rfl <;> exact hok
      · rw [hf] at h; cases h; trivial
      · rw [hf] at h; cases h
      · rw [hsh, hd', hd]; exact ⟨hc, .zero (by simp)⟩
      · rw [hsh, hd']; rw [hF'] at h
        exact ⟨hc, (hL.rel p hp h).2.keep ht hkp⟩
    | parkF v x p hk hp hc hd hd' hs hf =>
      have hE' : (after (obj kd) a t k).wq .empty = a.wq .empty := by rw [wq_park hs hf]; simp [setC]
      have hkp : ¬ popper k := by rcases hk with rfl | rfl <;> simp [popper]
      refine ⟨ok_after hL.ok (fun c j h => ?_) (by rw [hf]; simp), kind_after hL.kindE (fun j h => ?_),
        kind_after hL.kindF (fun j h => ?_), fun h => ?_, fun p' hp' h => ?_⟩
      · rw [hf] at h; cases h; rcases hk with rfl | rfl <;> exact hok
      · rw [hf] at h; cases h
      · rw [hf] at h; cases h; exact ⟨trivial, p, hp⟩
      · rw [hsh, hd']; rw [hE'] at h
        exact ⟨hc, (hL.acq h).2.keep ht hkp⟩
      · rw [hsh, hd']
        rw [hp'] at hp; cases hp
        exact ⟨hc, .zero (by omega)⟩
    | quiet hk hk2 hd' hs hf hn' =>
      have hwq := wq_nil hs hf
      refine ⟨ok_after hL.ok (fun c j h => absurd h (hf _ _)) hn',
        kind_after hL.kindE (fun j h => absurd h (hf _ _)), kind_after hL.kindF (fun j h => absurd h (hf _ _)), fun h => ?_, fun p hp h => ?_⟩
      · rw [hsh, hd']; rw [hwq] at h
        have h0 := hL.acq h
        refine ⟨h0.1, h0.2.keep ht (fun hpk => ?_)⟩
        cases k with
        | popW x y =>
          rcases hk x y rfl with h1 | rfl
          · rw [h1] at h0; exact absurd h0.1 (by simp)
          · exact h (hE y rfl)
        | _ => exact hpk
      · rw [hsh, hd']; rw [hwq] at h
        have h0 := hL.rel p hp h
        refine ⟨h0.1, h0.2.keep ht (fun hpk => ?_)⟩
        cases k with
        | pushW v x =>
          rcases hk2 v x rfl with h1 | rfl
          · rw [h1] at h0; exact absurd h0.1 (by simp)
          · exact h (hF v rfl)
        | _ => exact hpk
    | close hd' hs hf hn' =>
      refine ⟨ok_after hL.ok (fun c j h => absurd h (hf _ _)) hn',
        kind_after hL.kindE (fun j h => absurd h (hf _ _)), kind_after hL.kindF (fun j h => absurd h (hf _ _)), fun h => ?_, fun p hp h => ?_⟩
      · exact absurd (wq_close hs hf .empty) h
      · exact absurd (wq_close hs hf .full) h

theorem live_reach (hns : kd ≠ .sync) {m n : Mode} (hm : m ≠ .any) (hn : ∀ p, kd = .fixed p → n ≠ .any) (as : List (Act (Op α)))
    (s : Low (Ch α) Cv (Op α) (Res α)) (es : Trace α) (h : runs (Low.step (obj kd)) (Low.init Ch.init) as = some (s, es))
    (hP : ∀ t k, Ev.call t k ∈ es → Op.callable k ∧ ok m n t k) : Live kd m n s.abs :=
  abs_inv_cl (obj kd) (fun t k => Op.callable k ∧ ok m n t k) Ch.init as s es h hP (Live kd m n)
    ⟨by simp [Abs.init], by simp [Abs.init], by simp [Abs.init], by simp [Abs.init], by simp [Abs.init]⟩
    (fun a x a' es hw hL hc hs => live_step hns hm hn a x a' es hw hL hc hs)

theorem shrinks (kd : Kind) : ∃ rem, Shrinks (obj kd : Obj (Ch α) Cv (Op α) (Res α) (Lin α)) rem := by
  refine ⟨fun k => match k with
    | .push _ _ => 3 | .pushW _ _ => 2 | .syncW => 1 | .pop _ _ => 1 | .popW _ _ => 1 | .close => 1, ?_⟩
  intro t k c
  obtain ⟨d, b⟩ := c
  cases k with
  | push v x =>
    cases b with
    | true => simp [obj]
    | false => cases ho : occupied kd d.length <;> cases x <;> cases kd <;> simp [obj, ho, enter, afterEnter]
  | pushW v x =>
    cases b with
    | true => simp [obj]
    | false => cases ho : mayEnter kd d.length <;> cases x <;> cases kd <;> simp [obj, ho, enter, afterEnter]
  | syncW => cases b <;> cases d <;> simp [obj]
  | pop x y | popW x y => all_goals cases b <;> cases d <;> cases x <;> simp [obj, popBody]
  | close => simp [obj]

end

/-! ## C112 -/

section
variable {α : Type}

/-- `as` is an execution from a new channel, with every step of the mutex and of the condition variables, that ends in `f` with
trace `es`. (Concerns co_chan.h:85-346.) -/
def Exec (kd : Kind) (as : List (FAct (Op α))) (f : Full (Ch α) Cv (Op α) (Res α)) (es : Trace α) : Prop :=
  runs (Full.step (obj kd)) (Full.init Ch.init) as = some (f, es)

/-- C112, first half. Whatever copies throw: the trace is one of a correct channel, in which a call that throws has no effect; what left
the channel, followed by what is in it, is what entered, in order; the capacity is respected; and without new calls everything comes to
rest. -/
theorem C112_channel_stays_correct (kd : Kind) (as : List (FAct (Op α))) (f : Full (Ch α) Cv (Op α) (Res α)) (es : Trace α)
    (h : Exec kd as f es) (hc : Client es) :
    Correct kd es ∧ gotVals es ++ f.low.sh.data = accVals es ∧ fits kd f.low.sh.data.length ∧ f.Ends (obj kd) := by
  obtain ⟨_, bs, hb⟩ := Full.sim_init h
  obtain ⟨q, h1, h2⟩ := sim_reach bs f.low es hb hc
  obtain ⟨rem, hr⟩ := shrinks (α := α) kd
  have h3 := path_vals h1
  have h4 : q.data = f.low.sh.data := h2.data
  exact ⟨⟨q, h1⟩, by rw [← h4, ← h3]; rfl, h2.fit, full_terminates _ rem hr _ as f es h⟩

/-- C112, first half, for the caller. A completed call did exactly one thing, and its result says which: a `push` or `pop` that threw
inside the channel neither added nor took a value; a value that left the channel is returned, unless the caller's own assignment
throws. -/
theorem C112_outcome (kd : Kind) (as : List (FAct (Op α))) (f : Full (Ch α) Cv (Op α) (Res α)) (pre mid post : Trace α) (t : Tid)
    (k : Op α) (r : Res α) (h : Exec kd as f (pre ++ .call t k :: mid ++ .ret t r :: post))
    (hc : Client (pre ++ .call t k :: mid ++ .ret t r :: post)) (hm : ∀ r, .ret t r ∉ mid) :
    ∃ e, own t mid = [e] ∧ Outcome t k e r := by
  obtain ⟨⟨q, h1⟩, _⟩ := C112_channel_stays_correct kd as f _ h hc
  have e : pre ++ .call t k :: mid ++ .ret t r :: post = pre ++ ((.call t k :: mid ++ [.ret t r]) ++ post) := by simp
  rw [e] at h1
  obtain ⟨_, _, h2⟩ := h1.split
  obtain ⟨_, h3, _⟩ := h2.split
  exact matched h3 hm

/-- Only one coroutine receives, or no copy out of the channel throws; and only one sends, or no copy into the channel throws, or the
channel is unlimited. (Concerns co_chan.h:85-346.) -/
def Careful (kd : Kind) (es : Trace α) : Prop :=
  ((∀ t x y, Ev.call t (.pop x y) ∈ es → x = false) ∨ ∃ c, ∀ t x y, Ev.call t (.pop x y) ∈ es → t = c) ∧
  (kd = .unlimited ∨ (∀ t v x, Ev.call t (.push v x) ∈ es → x = false) ∨ ∃ c, ∀ t v x, Ev.call t (.push v x) ∈ es → t = c)

/-- C112, second half, for buffered and unlimited channels and `Careful` programs: when nobody can go on, everyone who is still inside
receives from an empty open channel or sends into a full open one. Missing: several receivers (senders) with throwing copies, where it is
false (`C112_receiver_stranded`, `C112_sender_stranded`), and unbuffered channels, where it is false anyway (C38). -/
theorem C112_nobody_stranded_partial (kd : Kind) (hk : kd ≠ .sync) (as : List (FAct (Op α))) (f : Full (Ch α) Cv (Op α) (Res α))
    (es : Trace α) (h : Exec kd as f es) (hc : Client es) (hcare : Careful kd es) (hst : f.Stuck (obj kd)) (t : Tid) :
    f.low.pc t = .idle ∨ (∃ x y, f.low.pc t = .pYield .empty (.popW x y) ∧ f.low.sh = ⟨[], false⟩) ∨
    (∃ n v x, kd = .fixed n ∧ f.low.pc t = .pYield .full (.pushW v x) ∧ f.low.sh.data.length = n ∧ f.low.sh.closed = false) := by
  obtain ⟨_, bs, hb⟩ := Full.sim_init h
  obtain ⟨m, hm, hmo⟩ : ∃ m : Mode, m ≠ .any ∧ ∀ t x y, Ev.call t (.pop x y) ∈ es → m.ok t x := by
    rcases hcare.1 with h1 | ⟨c, h1⟩
    · exact ⟨.never, by simp, h1⟩
    · exact ⟨.one c, by simp, h1⟩
  obtain ⟨n, hn, hno⟩ : ∃ n : Mode, (∀ p, kd = .fixed p → n ≠ .any) ∧ ∀ t v x, Ev.call t (.push v x) ∈ es → n.ok t x := by
    rcases hcare.2 with h1 | h1 | ⟨c, h1⟩
    · exact ⟨.any, by simp [h1], fun _ _ _ _ => trivial⟩
    · exact ⟨.never, by simp, h1⟩
    · exact ⟨.one c, by simp, h1⟩
  have hL := live_reach hk hm hn bs f.low es hb (fun t k hk => ⟨hc t k hk, by
    have := hc t k hk
    cases k with
    | pop x y => exact hmo t x y hk
    | push v x => exact hno t v x hk
    | close => trivial
    | _ => exact absurd this (by simp [Op.callable])⟩)
  have hfit := (C112_channel_stays_correct kd as f es h hc).2.2.1
  have hstuck := C22_stuck_only_parked (obj kd) Ch.init f.low ⟨bs, es, hb⟩ (full_stuck h hst)
  have hidle : ∀ u k, f.low.abs.th u ≠ .ready k := by
    intro u k hu
    rcases hstuck u with ⟨_, hh⟩ | ⟨c, j, _, _, _, hh, _⟩ <;> (rw [hu] at hh; cases hh)
  rcases hstuck t with ⟨hh, _⟩ | ⟨c, j, hpc, _, hmem, hth, hwq⟩
  · exact .inl hh
  · refine .inr ?_
    have hne : f.low.abs.wq c ≠ [] := by rw [hwq]; exact List.ne_nil_of_mem hmem
    have h4 : f.low.abs.sh = f.low.sh := rfl
    cases c with
    | empty =>
      have h1 := hL.kindE t j hth
      have h2 := hL.acq hne
      have h3 := h2.2.stuck hidle
      rw [h4] at h3 h2
      cases j with
      | popW x y =>
        refine .inl ⟨x, y, hpc, ?_⟩
        generalize f.low.sh = sh at h2 h3
        obtain ⟨d, c⟩ := sh
        cases d with
        | nil => simp only at h2; rw [h2.1]
        | cons => simp at h3; omega
      | _ => exact absurd h1 (by simp [popper])
    | full =>
      obtain ⟨h1, n, hn⟩ := hL.kindF t j hth
      have h2 := hL.rel n hn hne
      have h3 : (n : Int) - f.low.sh.data.length ≤ 0 := h2.2.stuck hidle
      subst hn
      simp only [fits] at hfit
      cases j with
      | pushW v x => exact .inr ⟨n, v, x, rfl, hpc, by omega, h2.1⟩
      | _ => exact absurd h1 (by simp [pusher])

/-! ## Witnesses -/

/-- Proof device: who never called is idle. -/
theorem idle_of_never {kd : Kind} {as : List (FAct (Op α))} {f : Full (Ch α) Cv (Op α) (Res α)} {es : Trace α} (h : Exec kd as f es)
    {t : Tid} (ht : ∀ k, Ev.call t k ∉ es) : f.low.pc t = .idle := by
  obtain ⟨_, bs, hb⟩ := Full.sim_init h
  refine (runs_hist (fun (s : Low (Ch α) Cv (Op α) (Res α)) (es : Trace α) => (∀ k, Ev.call t k ∉ es) → s.pc t = .idle) ?_ bs _ _ es [] ?_ hb)
    (by simpa using ht)
  · intro s a s' es tr hI hs hn
    have h1 := hI (fun k hk => hn k (List.mem_append_left _ hk))
    cases a with
    | call u k =>
      simp only [Low.step] at hs
      split at hs <;> cases hs
      have hu : t ≠ u := by rintro rfl; exact hn k (by simp)
      simpa [Low.goto, hu] using h1
    | run u =>
      obtain ⟨h2, h3⟩ := run_pc_other hs
      have hu : t ≠ u := by rintro rfl; exact h3 h1
      rw [h2 t hu]; exact h1
  · intro _; rfl

/-- Proof device: it suffices to look at the coroutines in `L`. -/
theorem stuck_of {kd : Kind} {as : List (FAct (Op α))} {f : Full (Ch α) Cv (Op α) (Res α)} {es : Trace α} (h : Exec kd as f es)
    (L : List Tid) (hL : ∀ t k, Ev.call t k ∈ es → t ∈ L) (hs : L.all (fun t => (f.step (obj kd) (.run t true)).isNone &&
      (f.step (obj kd) (.run t false)).isNone) = true) : f.Stuck (obj kd) := by
  intro t b
  by_cases ht : t ∈ L
  · have := List.all_eq_true.1 hs t ht
    simp only [Bool.and_eq_true, Option.isNone_iff_eq_none] at this
    cases b
    · exact this.2
    · exact this.1
  · have h1 := idle_of_never h (fun k hk => ht (hL t k hk))
    obtain ⟨hI, _⟩ := Full.sim_init h
    have h2 : f.mx.pc t = .out := by
      rcases hI.link t with ⟨h2, _⟩ | ⟨_, k, h3⟩ | ⟨_, h3⟩
      · exact h2
      · rw [h1] at h3; cases h3
      · rw [h1] at h3; simp [Pc.unlocking] at h3
    simp [Full.step, Full.runStep, h2, h1, Pc.unlocking, Low.runStep]

/-- Shorthand for schedules: `t` makes `n` steps. (Concerns co_chan.h:85-346.) -/
def steps (t : Tid) (n : Nat) : List (FAct (Op Nat)) := List.replicate n (.run t true)

/-- 1 and 2 wait in `pop`; 3 sends 7, which wakes 1; the copy of 1 throws. (Concerns co_chan.h:85-346.) -/
def receiverRun : List (FAct (Op Nat)) :=
  [.call 1 (.pop true false)] ++ steps 1 14 ++ [.call 2 (.pop false false)] ++ steps 2 14 ++ [.call 3 (.push 7 false)] ++ steps 3 14 ++
  steps 1 11

/-- C112, second half, is false for two receivers: 1 has its exception, the channel is open and holds 7, nobody can make a step, and 2
waits for a value. -/
theorem C112_receiver_stranded : ∃ f es, Exec .unlimited receiverRun f es ∧ Client es ∧ .ret 1 .threw ∈ es ∧
    f.low.sh = ⟨[7], false⟩ ∧ f.low.pc 2 = .pYield .empty (.popW false false) ∧ f.Stuck (obj .unlimited) := by
  have h : ((runs (Full.step (obj .unlimited)) (Full.init Ch.init) receiverRun).map (fun p => p.2)) =
      some [.call 1 (.pop true false), .call 2 (.pop false false), .call 3 (.push 7 false), .lin (.accepted 3 7),
        .ret 3 (.pushed true), .lin (.threw 1), .ret 1 .threw] := by decide
  have h' : ((runs (Full.step (obj .unlimited)) (Full.init Ch.init) receiverRun).map (fun p => (p.1.low.sh, p.1.low.pc 2,
      [1, 2, 3].all (fun t => (p.1.step (obj .unlimited) (.run t true)).isNone && (p.1.step (obj .unlimited) (.run t false)).isNone)))) =
      some (⟨[7], false⟩, .pYield .empty (.popW false false), true) := by decide
  cases hr : runs (Full.step (obj .unlimited)) (Full.init (Ch.init : Ch Nat)) receiverRun with
  | none => rw [hr] at h; simp at h
  | some p =>
    obtain ⟨f, es⟩ := p
    rw [hr] at h h'
    simp only [Option.map_some, Option.some.injEq, Prod.mk.injEq] at h h'
    obtain ⟨h2, h3, h4⟩ := h'
    refine ⟨f, es, hr, ?_, ?_, h2, h3, stuck_of hr [1, 2, 3] ?_ h4⟩
    · subst h
      intro t k hm
      simp only [List.mem_cons, Ev.call.injEq, reduceCtorEq, false_or, List.not_mem_nil, or_false] at hm
      rcases hm with ⟨_, rfl⟩ | ⟨_, rfl⟩ | ⟨_, rfl⟩ <;> trivial
    · subst h; simp
    · subst h
      intro t k hm
      simp only [List.mem_cons, Ev.call.injEq, reduceCtorEq, false_or, List.not_mem_nil, or_false] at hm
      rcases hm with ⟨rfl, _⟩ | ⟨rfl, _⟩ | ⟨rfl, _⟩ <;> simp

/-- A channel for one value. 1 fills it; 2 and 3 wait in `push`; 4 receives, which wakes 2; the copy of 2 throws. (Concerns co_chan.h:85-346.) -/
def senderRun : List (FAct (Op Nat)) :=
  [.call 1 (.push 7 false)] ++ steps 1 13 ++ [.call 2 (.push 8 true)] ++ steps 2 14 ++ [.call 3 (.push 9 false)] ++ steps 3 14 ++
  [.call 4 (.pop false false)] ++ steps 4 14 ++ steps 2 11

/-- C112, second half, is false for two senders: 2 has its exception, the channel is open and empty, nobody can make a step, and 3
waits for room. -/
theorem C112_sender_stranded : ∃ f es, Exec (.fixed 1) senderRun f es ∧ Client es ∧ .ret 2 .threw ∈ es ∧
    f.low.sh = ⟨[], false⟩ ∧ f.low.pc 3 = .pYield .full (.pushW 9 false) ∧ f.Stuck (obj (.fixed 1)) := by
  have h : ((runs (Full.step (obj (.fixed 1))) (Full.init Ch.init) senderRun).map (fun p => p.2)) =
      some [.call 1 (.push 7 false), .lin (.accepted 1 7), .ret 1 (.pushed true), .call 2 (.push 8 true), .call 3 (.push 9 false),
        .call 4 (.pop false false), .lin (.got 4 7), .ret 4 (.popped (some 7)), .lin (.threw 2), .ret 2 .threw] := by decide
  have h' : ((runs (Full.step (obj (.fixed 1))) (Full.init Ch.init) senderRun).map (fun p => (p.1.low.sh, p.1.low.pc 3,
      [1, 2, 3, 4].all (fun t => (p.1.step (obj (.fixed 1)) (.run t true)).isNone &&
        (p.1.step (obj (.fixed 1)) (.run t false)).isNone)))) =
      some (⟨[], false⟩, .pYield .full (.pushW 9 false), true) := by decide
  cases hr : runs (Full.step (obj (.fixed 1))) (Full.init (Ch.init : Ch Nat)) senderRun with
  | none => rw [hr] at h; simp at h
  | some p =>
    obtain ⟨f, es⟩ := p
    rw [hr] at h h'
    simp only [Option.map_some, Option.some.injEq, Prod.mk.injEq] at h h'
    obtain ⟨h2, h3, h4⟩ := h'
    refine ⟨f, es, hr, ?_, ?_, h2, h3, stuck_of hr [1, 2, 3, 4] ?_ h4⟩
    · subst h
      intro t k hm
      simp only [List.mem_cons, Ev.call.injEq, reduceCtorEq, false_or, List.not_mem_nil, or_false] at hm
      rcases hm with ⟨_, rfl⟩ | ⟨_, rfl⟩ | ⟨_, rfl⟩ | ⟨_, rfl⟩ <;> trivial
    · subst h; simp
    · subst h
      intro t k hm
      simp only [List.mem_cons, Ev.call.injEq, reduceCtorEq, false_or, List.not_mem_nil, or_false] at hm
      rcases hm with ⟨rfl, _⟩ | ⟨rfl, _⟩ | ⟨rfl, _⟩ | ⟨rfl, _⟩ <;> simp

/-- The value is gone when the assignment of what `pop` returned throws: 7 entered, the receiver got an exception, and the channel is
empty. (`operator>`, `operator>>` and `++it` have no way to put it back.) -/
theorem C112_value_lost : ∃ as f es, Exec (.fixed 1) as f es ∧ Client es ∧ accVals es = [7] ∧ .ret 2 .lost ∈ es ∧
    (∀ t v, .ret t (.popped (some v)) ∉ es) ∧ f.low.sh = ⟨[], false⟩ := by
  let as : List (FAct (Op Nat)) := [.call 1 (.push 7 false)] ++ steps 1 13 ++ [.call 2 (.pop false true)] ++ steps 2 13
  have h : ((runs (Full.step (obj (.fixed 1))) (Full.init Ch.init) as).map (fun p => (p.2, p.1.low.sh))) =
      some ([.call 1 (.push 7 false), .lin (.accepted 1 7), .ret 1 (.pushed true), .call 2 (.pop false true), .lin (.got 2 7),
        .ret 2 .lost], ⟨[], false⟩) := by decide
  cases hr : runs (Full.step (obj (.fixed 1))) (Full.init (Ch.init : Ch Nat)) as with
  | none => rw [hr] at h; simp at h
  | some p =>
    obtain ⟨f, es⟩ := p
    rw [hr] at h
    simp only [Option.map_some, Option.some.injEq, Prod.mk.injEq] at h
    obtain ⟨h, h2⟩ := h
    refine ⟨as, f, es, hr, ?_, ?_, ?_, ?_, h2⟩
    · subst h
      intro t k hm
      simp only [List.mem_cons, Ev.call.injEq, reduceCtorEq, false_or, List.not_mem_nil, or_false] at hm
      rcases hm with ⟨_, rfl⟩ | ⟨_, rfl⟩ <;> trivial
    · subst h; rfl
    · subst h; simp
    · subst h; simp

/-! ## Cases -/

/-- One receiver whose first copy throws: `pop` is called again and gets the value; everyone is idle at the end. (Concerns co_chan.h:85-346.) -/
def againRun : List (FAct (Op Nat)) :=
  [.call 1 (.pop true false)] ++ steps 1 14 ++ [.call 3 (.push 7 false)] ++ steps 3 14 ++ steps 1 11 ++
  [.call 1 (.pop false false)] ++ steps 1 13

example : ((runs (Full.step (obj .unlimited)) (Full.init Ch.init) againRun).map (fun p => (p.2, p.1.low.sh))) =
    some ([.call 1 (.pop true false), .call 3 (.push 7 false), .lin (.accepted 3 7), .ret 3 (.pushed true), .lin (.threw 1), .ret 1 .threw,
      .call 1 (.pop false false), .lin (.got 1 7), .ret 1 (.popped (some 7))], ⟨[], false⟩) := by decide

/-- That program is `Careful` although a copy out of the channel throws. -/
example : Careful (α := Nat) .unlimited [.call 1 (.pop true false), .call 3 (.push 7 false), .lin (.accepted 3 7), .ret 3 (.pushed true),
    .lin (.threw 1), .ret 1 .threw, .call 1 (.pop false false), .lin (.got 1 7), .ret 1 (.popped (some 7))] := by
  refine ⟨.inr ⟨1, ?_⟩, .inl rfl⟩
  intro t x y h
  simp only [List.mem_cons, Ev.call.injEq, reduceCtorEq, false_or, List.not_mem_nil, or_false] at h
  rcases h with ⟨rfl, _⟩ | ⟨_, h⟩ | ⟨rfl, _⟩
  · rfl
  · cases h
  · rfl

/-- `C112_outcome` on its first call: the exception stands for an attempt without effect. -/
example (as : List (FAct (Op Nat))) (f) (post : Trace Nat)
    (h : Exec .unlimited as f ([.call 3 (.push 7 false), .lin (.accepted 3 7), .ret 3 (.pushed true)] ++
      .call 1 (.pop true false) :: [.lin (.threw 1)] ++ .ret 1 .threw :: post))
    (hc : Client ([.call 3 (.push 7 false), .lin (.accepted 3 7), .ret 3 (.pushed true)] ++
      .call 1 (.pop true false) :: [.lin (.threw 1)] ++ .ret 1 .threw :: post)) :
    ∃ e, own 1 ([.lin (.threw 1)] : Trace Nat) = [e] ∧ Outcome 1 (.pop true false) e .threw :=
  C112_outcome .unlimited as f _ _ _ 1 _ _ h hc (by simp)

end
end Verif.ChanThrow
