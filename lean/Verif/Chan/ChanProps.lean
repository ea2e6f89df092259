import Verif.Chan.ChanSpec

/-! # Properties of co_chan (C33 – C39)

All theorems are about every execution of every kind of channel with any number of coroutines: `Exec kd as s es` says that
schedule `as` leads from the new channel to state `s` with trace `es`. `Client es` says that only the public operations
are called. -/

namespace Verif.Chan
open Monitor
section
variable {α : Type} {kd : Kind}

/-- `as` is an execution of the interleaved machine from a new channel, with trace `es`. (Concerns co_chan.h:21-386.) -/
def Exec (kd : Kind) (as : List (Act (Op α))) (s : LowSt α) (es : Trace α) : Prop :=
  runs (Low.step (obj kd)) (Low.init Ch.init) as = some (s, es)

/-- The clients call only the public operations. (Concerns co_chan.h:21-386.) -/
def Client (es : Trace α) : Prop := ∀ t k, Ev.call t k ∈ es → Op.callable k

/-! ## C33 -/

theorem chan_correct (as : List (Act (Op α))) (s : LowSt α) (es : Trace α) (h : Exec kd as s es) (hc : Client es) :
    Correct kd es := by
  obtain ⟨q, h1, _⟩ := sim_reach kd as s es h hc
  exact ⟨q, h1⟩

/-- C33. What was received, followed by what is still in the channel, is what entered, in order. -/
theorem C33_fifo_exactly_once (as : List (Act (Op α))) (s : LowSt α) (es : Trace α) (h : Exec kd as s es)
    (hc : Client es) : gotVals es ++ s.sh.data = accVals es := by
  obtain ⟨q, h1, h2⟩ := sim_reach kd as s es h hc
  have h3 := (path_facts h1).1
  have h4 : q.data = s.sh.data := h2.data
  rw [← h4]
  exact h3.symm

/-- Producer 1 fills a channel of capacity 1, waits, consumer 2 takes, 3 closes: everything arrives in order. (Concerns co_chan.h:21-386.) -/
def demoRun : List (Act (Op Nat)) :=
  [.call 1 (.push 10)] ++ List.replicate 6 (.run 1) ++ [.call 1 (.push 20)] ++ List.replicate 7 (.run 1) ++
  [.call 2 .pop] ++ List.replicate 7 (.run 2) ++ List.replicate 7 (.run 1) ++
  [.call 3 .close] ++ List.replicate 11 (.run 3) ++ [.call 2 .pop] ++ List.replicate 6 (.run 2) ++
  [.call 2 .pop] ++ List.replicate 3 (.run 2)

example : (runs (Low.step (obj (.fixed 1))) (Low.init Ch.init) demoRun).map (fun p =>
      (accVals p.2, gotVals p.2, p.1.sh)) = some ([10, 20], [10, 20], ⟨[], true⟩) := by decide

example : (runs (Low.step (obj (.fixed 1))) (Low.init Ch.init) demoRun).map (fun p =>
      p.2.filter (fun e => match e with | .ret _ _ => true | _ => false)) =
    some ([.ret 1 (.pushed true), .ret 2 (.popped (some 10)), .ret 1 (.pushed true),
      .ret 3 .ok, .ret 2 (.popped (some 20)), .ret 2 (.popped none)]) := by decide

/-! ## C34 -/

/-- C34. Never more than `n` values in a channel of capacity `n`, never more than one in an unbuffered one. -/
theorem C34_capacity (as : List (Act (Op α))) (s : LowSt α) (es : Trace α) (h : Exec kd as s es) (hc : Client es) :
    (∀ n, kd = .fixed n → s.sh.data.length ≤ n) ∧ (kd = .sync → s.sh.data.length ≤ 1) := by
  obtain ⟨q, _, h2⟩ := sim_reach kd as s es h hc
  have h3 : fits kd s.sh.data.length := h2.fit
  constructor
  · rintro n rfl; exact h3
  · rintro rfl; exact h3

/-- The bound is reached. -/
example : (runs (Low.step (obj (.fixed 1))) (Low.init Ch.init) (demoRun.take 15)).map (fun p =>
    (p.1.sh.data, p.1.pc 1)) = some ([10], .pYield .full (.pushW 20)) := by decide

/-- C34. Whoever waits on a condition variable of an unlimited channel is in `pop` (or in a loop step), never in `push`;
likewise a `push` in a buffered channel waits only at the "channel full" test. -/
theorem C34_unlimited_push_never_waits (as : List (Act (Op α))) (s : LowSt α) (es : Trace α)
    (h : Exec .unlimited as s es) (hc : Client es) (t : Tid) (c : Cv) (k : Op α) (ht : s.abs.th t = .parked c k) :
    k = .popW ∨ k = .nextW := by
  obtain ⟨hE, hF⟩ := live_reach (by simp) as s es h hc
  cases c with
  | full => obtain ⟨_, n, hn⟩ := hF.kind t k ht; cases hn
  | empty => have := hE.kind t k ht; cases k <;> simp_all [popper]

/-- A consumer does wait on an empty unlimited channel. -/
example : (runs (Low.step (obj .unlimited)) (Low.init Ch.init) ([.call 1 (.pop : Op Nat)] ++ List.replicate 7 (.run 1))).map
    (fun p => (p.1.abs.th 1, p.1.abs.wq .empty)) = some (.parked .empty .popW, [1]) := by decide

/-! ## C35 -/

theorem ok_closed {q : Q α} {es : Trace α} (h : Path (Step kd) Q.init es q) :
    (∀ t, q.th t = .finished .ok → q.closed = true) ∧
    (∀ t, q.th t = .finished .stop ∨ q.th t = .finished (.popped none) → q.closed = true ∧ q.data = []) := by
  refine h.inv (fun q => (∀ t, q.th t = .finished .ok → q.closed = true) ∧
    (∀ t, q.th t = .finished .stop ∨ q.th t = .finished (.popped none) → q.closed = true ∧ q.data = [])) ?_
    (by simp [Q.init])
  intro q e q' hI hs
  cases hs <;> refine ⟨fun u hu => ?_, fun u hu => ?_⟩ <;> simp only [upd] at hu ⊢
  all_goals
    have h1 := hI.1 u
    have h2 := hI.2 u
    try split at hu
  all_goals simp_all

/-- The state of the specification when `close()` returns. -/
theorem close_returned {pre post : Trace α} {c : Tid} {q : Q α}
    (h : Path (Step kd) Q.init (pre ++ .ret c .ok :: post) q) :
    ∃ q1 q2, Path (Step kd) Q.init pre q1 ∧ Path (Step kd) q2 post q ∧ q1.closed = true ∧ q2.closed = true ∧
      q2.data = q1.data := by
  obtain ⟨q1, h1, h2⟩ := h.split
  cases h2 with
  | cons h3 h4 =>
    cases h3 with
    | ret h5 =>
      have := (ok_closed h1).1 c h5
      exact ⟨q1, _, h1, h4, this, this, rfl⟩

/-- C35. After `close()` has returned nothing enters the channel, and `closed()` says true. -/
theorem C35_nothing_enters_after_close (as : List (Act (Op α))) (s : LowSt α) (pre post : Trace α) (c : Tid)
    (h : Exec kd as s (pre ++ .ret c .ok :: post)) (hc : Client (pre ++ .ret c .ok :: post)) :
    accVals post = [] ∧ (∀ t b, .lin (.saysClosed t b) ∈ post → b = true) ∧ s.sh.closed = true := by
  obtain ⟨q, h1, h2⟩ := sim_reach kd as s _ h hc
  obtain ⟨q1, q2, _, h4, _, h6, _⟩ := close_returned h1
  refine ⟨((path_facts h4).2.2.2.1 h6).2, fun t b hm => ?_, ?_⟩
  · obtain ⟨p1, p2, rfl⟩ := List.append_of_mem hm
    obtain ⟨q3, h7, h8⟩ := h4.split
    have h9 := ((path_facts h7).2.2.2.1 h6).1
    cases h8 with
    | cons h10 _ => cases h10 with | saysClosed _ => exact h9
  · have := ((path_facts h4).2.2.2.1 h6).1
    rw [h2.closed] at this
    exact this

/-- C35. Every push called after `close()` has returned returns false (if it returns). -/
theorem C35_push_after_close_false (as : List (Act (Op α))) (s : LowSt α) (pre p1 mid p2 : Trace α) (c t : Tid) (v : α)
    (r : Res α) (h : Exec kd as s (pre ++ .ret c .ok :: (p1 ++ (.call t (.push v) :: mid ++ [.ret t r]) ++ p2)))
    (hc : Client (pre ++ .ret c .ok :: (p1 ++ (.call t (.push v) :: mid ++ [.ret t r]) ++ p2)))
    (hm : ∀ r, .ret t r ∉ mid) : r = .pushed false := by
  obtain ⟨q, h1, _⟩ := sim_reach kd as s _ h hc
  obtain ⟨q1, q2, _, h4, _, h6, _⟩ := close_returned h1
  have h7 := ((path_facts h4).2.2.2.1 h6).2
  obtain ⟨q3, h8, _⟩ := h4.split
  obtain ⟨q4, _, h9⟩ := h8.split
  obtain ⟨e, h10, h11⟩ := matched h9 hm
  cases h11 with
  | pushFalse => rfl
  | pushTrue =>
    exfalso
    have hin : ∀ m : Trace α, Lin.accepted t v ∈ own t m → v ∈ accVals m := by
      intro m
      induction m with
      | nil => simp [own]
      | cons e m ih =>
        rcases e with _ | e | _
        · simpa [own, accVals] using ih
        · intro hm
          simp only [own] at hm
          cases e <;> simp only [accVals] <;> split at hm <;> simp_all <;> grind
        · simpa [own, accVals] using ih
    have := hin mid (by rw [h10]; simp)
    simp only [accVals_append, List.append_eq_nil_iff] at h7
    have h12 : accVals (.call t (.push v) :: mid) = accVals mid := rfl
    rw [h12] at h7
    rw [h7.1.2.1] at this
    simp at this

/-- C35. What was in the channel when `close()` returned is delivered afterwards, in order. -/
theorem C35_rest_delivered (as : List (Act (Op α))) (s : LowSt α) (pre post : Trace α) (c : Tid)
    (h : Exec kd as s (pre ++ .ret c .ok :: post)) (hc : Client (pre ++ .ret c .ok :: post)) :
    accVals pre = gotVals pre ++ (gotVals post ++ s.sh.data) := by
  have h1 := C33_fifo_exactly_once as s _ h hc
  have h2 := (C35_nothing_enters_after_close as s pre post c h hc).1
  have h3 : gotVals (.ret c .ok :: post) = gotVals post := rfl
  have h4 : accVals (.ret c .ok :: post) = accVals post := rfl
  rw [gotVals_append, accVals_append, h3, h4, h2, List.append_nil, List.append_assoc] at h1
  exact h1.symm

/-- C35. Only a closed channel from which everything has been received is reported as drained, and then nothing is ever
received or accepted any more. -/
theorem C35_drained_only_when_closed_and_empty (as : List (Act (Op α))) (s : LowSt α) (pre post : Trace α) (t : Tid)
    (h : Exec kd as s (pre ++ .lin (.drained t) :: post)) (hc : Client (pre ++ .lin (.drained t) :: post)) :
    (∃ c, .lin (.closes c) ∈ pre) ∧ gotVals pre = accVals pre ∧ gotVals post = [] ∧ accVals post = [] := by
  obtain ⟨q, h1, _⟩ := sim_reach kd as s _ h hc
  obtain ⟨q1, h2, h3⟩ := h1.split
  cases h3 with
  | @cons _ q2 _ _ _ h4 h5 =>
    have hq : q1.closed = true ∧ q1.data = [] ∧ q2.closed = true ∧ q2.data = [] := by cases h4 <;> simp_all
    have f1 := path_facts h2
    have f2 := path_facts h5
    refine ⟨?_, ?_, ?_, (f2.2.2.2.1 hq.2.2.1).2⟩
    · rcases f1.2.2.2.2 hq.1 with h | h
      · cases h
      · exact h
    · have := f1.1
      rw [hq.2.1] at this
      simpa [Q.init] using this.symm
    · have := f2.1
      rw [hq.2.2.2, (f2.2.2.2.1 hq.2.2.1).2] at this
      simp at this
      exact this.1

/-- C35. `pop()` returns `nullopt` exactly when it found the channel closed and drained, and otherwise the value it
removed. -/
theorem C35_pop_result (as : List (Act (Op α))) (s : LowSt α) (pre mid post : Trace α) (t : Tid) (r : Res α)
    (h : Exec kd as s (pre ++ (.call t .pop :: mid ++ [.ret t r]) ++ post))
    (hc : Client (pre ++ (.call t .pop :: mid ++ [.ret t r]) ++ post)) (hm : ∀ r, .ret t r ∉ mid) :
    (r = .popped none ∧ own t mid = [.drained t]) ∨ ∃ v, r = .popped (some v) ∧ own t mid = [.got t v] := by
  obtain ⟨q, h1, _⟩ := sim_reach kd as s _ h hc
  obtain ⟨q1, h2, _⟩ := h1.split
  obtain ⟨q2, _, h3⟩ := h2.split
  obtain ⟨e, h4, h5⟩ := matched h3 hm
  cases h5 with
  | popSome v => exact Or.inr ⟨v, rfl, h4⟩
  | popNone => exact Or.inl ⟨rfl, h4⟩

/-- `demoRun` meets the hypotheses: it contains a close that returned, with a value still inside and a consumer that takes
it and then sees `nullopt`. -/
example : (runs (Low.step (obj (.fixed 1))) (Low.init Ch.init) demoRun).map (fun p =>
      let pre := p.2.takeWhile (· ≠ .ret 3 .ok)
      (accVals pre, gotVals pre, decide (.ret 3 .ok ∈ p.2), decide (.lin (.drained 2) ∈ p.2))) =
    some ([10, 20], [10], true, true) := by decide

/-! ## C36 -/

/-- C36. A completed `push(v)` did exactly one thing: it returned true and `v` entered once, or it returned false and was
refused. -/
theorem C36_push_result_truthful (as : List (Act (Op α))) (s : LowSt α) (pre mid post : Trace α) (t : Tid) (v : α)
    (r : Res α) (h : Exec kd as s (pre ++ (.call t (.push v) :: mid ++ [.ret t r]) ++ post))
    (hc : Client (pre ++ (.call t (.push v) :: mid ++ [.ret t r]) ++ post)) (hm : ∀ r, .ret t r ∉ mid) :
    (r = .pushed true ∧ own t mid = [.accepted t v]) ∨ (r = .pushed false ∧ own t mid = [.refused t]) := by
  obtain ⟨q, h1, _⟩ := sim_reach kd as s _ h hc
  obtain ⟨q1, h2, _⟩ := h1.split
  obtain ⟨q2, _, h3⟩ := h2.split
  obtain ⟨e, h4, h5⟩ := matched h3 hm
  cases h5 with
  | pushTrue => exact Or.inl ⟨rfl, h4⟩
  | pushFalse => exact Or.inr ⟨rfl, h4⟩

/-- A push refused: the channel is closed while the producer waits for room. -/
example : (runs (Low.step (obj (.fixed 1))) (Low.init Ch.init) (demoRun.take 15 ++ [.call 3 .close] ++
      List.replicate 12 (.run 3) ++ List.replicate 4 (.run 1))).map (fun p => (p.1.sh, own 1 p.2, p.2.getLast?)) =
    some (⟨[10], true⟩, [.accepted 1 10, .refused 1], some (.ret 1 (.pushed false))) := by decide

/-! ## C37 -/

/-- C37. Buffered and unlimited channels: if no coroutine inside an operation can make a step, then everyone still inside
either receives from an empty open channel or sends into a full open one. -/
theorem C37_no_stranded_waiter (hk : kd ≠ .sync) (as : List (Act (Op α))) (s : LowSt α) (es : Trace α)
    (h : Exec kd as s es) (hc : Client es) (hst : ∀ t, s.step (obj kd) (.run t) = none) (t : Tid)
    (ht : s.pc t ≠ .idle) :
    ((s.pc t = .pYield .empty .popW ∨ s.pc t = .pYield .empty .nextW) ∧ s.sh = ⟨[], false⟩) ∨
    (∃ n v, kd = .fixed n ∧ s.pc t = .pYield .full (.pushW v) ∧ s.sh.data.length = n ∧ s.sh.closed = false) := by
  obtain ⟨hE, hF⟩ := live_reach hk as s es h hc
  have hcap := (C34_capacity as s es h hc).1
  have hstuck := C22_stuck_only_parked (obj kd) Ch.init s ⟨as, es, h⟩ hst
  have hidle : ∀ u k, s.abs.th u ≠ .ready k := by
    intro u k hu
    rcases hstuck u with ⟨_, hh⟩ | ⟨c, j, _, _, _, hh, _⟩ <;> (rw [hu] at hh; cases hh)
  rcases hstuck t with ⟨hh, _⟩ | ⟨c, j, hpc, _, hmem, hth, hwq⟩
  · exact absurd hh ht
  · have hne : s.abs.wq c ≠ [] := by rw [hwq]; exact List.ne_nil_of_mem hmem
    cases c with
    | empty =>
      have h1 := hE.kind t j hth
      have h2 := hE.acq hne
      have h3 := h2.2.stuck hidle
      have h4 : s.abs.sh = s.sh := rfl
      refine Or.inl ⟨?_, ?_⟩
      · cases j <;> simp_all [popper]
      · rw [h4] at h3 h2
        obtain ⟨⟨d, c⟩⟩ := s
        simp only at h3 h2 ⊢
        rw [h2.1]
        cases d with
        | nil => rfl
        | cons => simp at h3; omega
    | full =>
      obtain ⟨h1, n, hn⟩ := hF.kind t j hth
      have h2 := hF.rel n hn hne
      have h3 : (n : Int) - s.sh.data.length ≤ 0 := h2.2.stuck hidle
      have h4 := hcap n hn
      refine Or.inr ⟨n, ?_⟩
      cases j with
      | pushW v => exact ⟨v, hn, hpc, by omega, h2.1⟩
      | _ => exact absurd h1 (by simp [pusher])

/-- Both cases occur: a sender waits on a full channel; a receiver waits on an empty one. -/
example : (runs (Low.step (obj (.fixed 1))) (Low.init Ch.init) (demoRun.take 15)).map (fun p =>
    ((p.1.step (obj (.fixed 1)) (.run 1)).isNone, p.1.pc 1, p.1.sh)) =
    some (true, .pYield .full (.pushW 20), ⟨[10], false⟩) := by decide

theorem shrinks (kd : Kind) : ∃ rem, Shrinks (obj kd : Obj (Ch α) Cv (Op α) (Res α) (Lin α)) rem := by
  refine ⟨fun k => match k with
    | .push _ => 2 | .pushW _ => 1 | .syncW => 1 | .pop => 1 | .popW => 1 | .next => 3 | .nextW => 3 | .nextC _ => 2
    | .nextE _ => 1 | .close => 1 | .isClosed => 1 | .isEmpty => 1, ?_⟩
  intro t k c
  obtain ⟨d, b⟩ := c
  cases k with
  | push v =>
    cases b with
    | true => simp [obj]
    | false =>
      cases kd with
      | unlimited => simp [obj, enter]
      | fixed n => by_cases hn : d.length = n <;> simp [obj, hn, enter]
      | sync => by_cases hn : d.length = 1 <;> simp [obj, hn, enter]
  | pushW v =>
    cases kd with
    | unlimited => simp [obj]
    | fixed n => by_cases hn : d.length < n <;> cases b <;> simp [obj, hn, enter]
    | sync => cases b <;> simp [obj]
  | syncW => cases b <;> cases d <;> simp [obj]
  | pop | popW | next | nextW => all_goals cases b <;> cases d <;> simp [obj, popBody]
  | nextC o => cases b <;> simp [obj]
  | nextE o => cases d <;> cases o <;> simp [obj]
  | _ => simp [obj]

/-- C37. All kinds of channel: without new calls every execution is finite. -/
theorem C37_terminates (as : List (Act (Op α))) (s : LowSt α) (es : Trace α) (h : Exec kd as s es) :
    ¬ ∃ f : Nat → LowSt α, f 0 = s ∧ ∀ n, ∃ t e, (f n).step (obj kd) (.run t) = some (f (n + 1), e) := by
  obtain ⟨rem, hr⟩ := shrinks (α := α) kd
  exact terminates (obj kd) rem hr Ch.init as s es h

example : ¬ ∃ f : Nat → LowSt Nat, f 0 = Low.init Ch.init ∧
    ∀ n, ∃ t e, (f n).step (obj .sync) (.run t) = some (f (n + 1), e) := C37_terminates [] _ [] rfl

/-! ## C38 -/

/-- C38, first half. When `push` on an unbuffered channel returns true, the value it put in (the one after `p1`) has been
received, or the channel has been closed. -/
theorem C38_returns_after_received (as : List (Act (Op α))) (s : LowSt α) (p1 p2 post : Trace α) (t : Tid) (v : α)
    (h : Exec .sync as s (p1 ++ .lin (.accepted t v) :: p2 ++ .ret t (.pushed true) :: post))
    (hc : Client (p1 ++ .lin (.accepted t v) :: p2 ++ .ret t (.pushed true) :: post)) (hm : ∀ r, .ret t r ∉ p2) :
    (gotVals (p1 ++ .lin (.accepted t v) :: p2))[(accVals p1).length]? = some v ∨
      ∃ c, .lin (.closes c) ∈ p1 ++ .lin (.accepted t v) :: p2 := by
  obtain ⟨q, h1, _⟩ := sim_reach .sync as s _ h hc
  obtain ⟨q3, h2, h3⟩ := h1.split
  obtain ⟨q1, h4, h5⟩ := h2.split
  have f := path_facts h2
  have f1 := path_facts h4
  cases h5 with
  | @cons _ q2 _ _ _ h6 h7 =>
    have he : q2.th t = .entered (accVals p1).length := by
      cases h6 with
      | accepted => simp only [upd_same]; have := f1.2.1; simp only [Q.init, Nat.zero_add] at this; rw [this]
    have keep : ∀ (es : Trace α) (qa qb : Q α), Path (Step .sync) qa es qb → (∀ r, .ret t r ∉ es) →
        qa.th t = .entered (accVals p1).length → qb.th t = .entered (accVals p1).length := by
      intro es qa qb hp
      induction hp with
      | nil => exact fun _ h => h
      | cons hst _ ih =>
        intro hr hth
        refine ih (fun r hm => hr r (by simp [hm])) ?_
        cases hst <;> simp only [upd] <;> split <;> simp_all <;> exact absurd rfl (hr _).1
    have he3 := keep p2 q2 q3 h7 hm he
    cases h3 with
    | cons h8 _ =>
      cases h8 with
      | ret h9 => rw [he3] at h9; cases h9
      | retPush h9 h10 =>
        rw [he3] at h9
        cases h9
        rcases h10 rfl with h11 | h11
        · left
          have h12 := f.2.2.1
          simp only [Q.init, Nat.zero_add] at h12
          have h13 := f.1
          simp only [Q.init, List.nil_append] at h13
          rw [h12] at h11
          have h14 : (accVals (p1 ++ .lin (.accepted t v) :: p2))[(accVals p1).length]? = some v := by
            rw [accVals_append]
            simp [accVals]
          rw [h13, List.getElem?_append_left h11] at h14
          exact h14
        · right
          rcases f.2.2.2.2 h11 with h | h
          · cases h
          · exact h

/-- C38, second half, for a single producer `p` (any number of receivers, anybody may close): if no coroutine inside an
operation can make a step, then either everyone still inside is receiving from an empty open channel, or the only one
inside is `p`, whose value nobody has received. So every push whose value was received returns. -/
theorem C38_single_producer_partial (p : Tid) (as : List (Act (Op α))) (s : LowSt α) (es : Trace α)
    (h : Exec .sync as s es) (hc : Client es) (hp : ∀ t v, .call t (.push v) ∈ es → t = p)
    (hst : ∀ t, s.step (obj .sync) (.run t) = none) (t : Tid) (ht : s.pc t ≠ .idle) :
    ((s.pc t = .pYield .empty .popW ∨ s.pc t = .pYield .empty .nextW) ∧ s.sh = ⟨[], false⟩) ∨
    (t = p ∧ s.pc p = .pYield .full .syncW ∧ s.sh.data ≠ [] ∧ s.sh.closed = false ∧ ∀ u, u ≠ p → s.pc u = .idle) := by
  obtain ⟨hE, hS⟩ := liveS_reach p as s es h (fun t k hm => ⟨hc t k hm, fun ⟨v, hv⟩ => hp t v (hv ▸ hm)⟩)
  have hstuck := C22_stuck_only_parked (obj .sync) Ch.init s ⟨as, es, h⟩ hst
  have hidle : ∀ u k, s.abs.th u ≠ .ready k := by
    intro u k hu
    rcases hstuck u with ⟨_, hh⟩ | ⟨c, j, _, _, _, hh, _⟩ <;> (rw [hu] at hh; cases hh)
  have hempty : ∀ u j, s.pc u = .pYield .empty j → s.abs.th u = .parked .empty j → s.abs.wq .empty ≠ [] →
      (s.pc u = .pYield .empty .popW ∨ s.pc u = .pYield .empty .nextW) ∧ s.sh = ⟨[], false⟩ := by
    intro u j hpc hth hne
    have h1 := hE.kind u j hth
    have h2 := hE.acq hne
    have h3 := h2.2.stuck hidle
    have h4 : s.abs.sh = s.sh := rfl
    refine ⟨?_, ?_⟩
    · cases j <;> simp_all [popper]
    · rw [h4] at h3 h2
      obtain ⟨⟨d, c⟩⟩ := s
      simp only at h3 h2 ⊢
      rw [h2.1]
      cases d with
      | nil => rfl
      | cons => simp at h3; omega
  rcases hstuck t with ⟨hh, _⟩ | ⟨c, j, hpc, _, hmem, hth, hwq⟩
  · exact absurd hh ht
  · have hne : s.abs.wq c ≠ [] := by rw [hwq]; exact List.ne_nil_of_mem hmem
    cases c with
    | empty => exact Or.inl (hempty t j hpc hth hne)
    | full =>
      obtain ⟨rfl, rfl⟩ := hS.kind t j hth
      have h2 : s.sh.closed = false ∧ s.sh.data ≠ [] := hS.open_ hne
      refine Or.inr ⟨rfl, hpc, h2.2, h2.1, fun u hu => ?_⟩
      rcases hstuck u with ⟨hh, _⟩ | ⟨c, j, hpc', _, hmem', hth', hwq'⟩
      · exact hh
      · have hne' : s.abs.wq c ≠ [] := by rw [hwq']; exact List.ne_nil_of_mem hmem'
        cases c with
        | full => exact absurd (hS.kind u j hth').1 hu
        | empty => have := (hempty u j hpc' hth' hne').2; rw [this] at h2; simp at h2

/-- A rendezvous: the producer waits for its value to be received, is woken by the receiver and returns. -/
example : (runs (Low.step (obj .sync)) (Low.init Ch.init) ([.call 1 (.push 10)] ++ List.replicate 10 (.run 1) ++
      [.call 2 .pop] ++ List.replicate 7 (.run 2) ++ List.replicate 4 (.run 1))).map (fun p => p.2) =
    some [.call 1 (.push 10), .lin (.accepted 1 10), .call 2 .pop, .lin (.got 2 10), .ret 2 (.popped (some 10)),
      .ret 1 (.pushed true)] := by decide

/-- Producer 1 sends 10; 3 receives it, which wakes 1; before 1 has run, producer 2 sends 20; 1 finds the channel occupied
and waits again, behind 2; 3 receives 20, which wakes 2. (Concerns co_chan.h:21-386.) -/
def strandRun : List (Act (Op Nat)) :=
  [.call 1 (.push 10)] ++ List.replicate 10 (.run 1) ++ [.call 3 .pop] ++ List.replicate 7 (.run 3) ++
  [.call 2 (.push 20)] ++ List.replicate 10 (.run 2) ++ List.replicate 8 (.run 1) ++
  [.call 3 .pop] ++ List.replicate 7 (.run 3) ++ List.replicate 4 (.run 2)

/-- C38 is false for two producers: both values have been received, the channel is open and empty, nobody can make a step,
and the first `push` has not returned. -/
theorem C38_two_producers_negation : ∃ s es, Exec .sync strandRun s es ∧ Client es ∧ gotVals es = [10, 20] ∧
    .lin (.accepted 1 10) ∈ es ∧ .lin (.got 3 10) ∈ es ∧ s.sh = ⟨[], false⟩ ∧ s.pc 1 = .pYield .full .syncW ∧
    s.pc 2 = .idle ∧ s.pc 3 = .idle ∧ s.step (obj .sync) (.run 1) = none ∧ (∀ r, .ret 1 r ∉ es) := by
  have h : ((runs (Low.step (obj .sync)) (Low.init Ch.init) strandRun).map (fun p => p.2)) =
      some [.call 1 (.push 10), .lin (.accepted 1 10), .call 3 .pop, .lin (.got 3 10), .ret 3 (.popped (some 10)),
        .call 2 (.push 20), .lin (.accepted 2 20), .call 3 .pop, .lin (.got 3 20), .ret 3 (.popped (some 20)),
        .ret 2 (.pushed true)] := by decide
  have h' : ((runs (Low.step (obj .sync)) (Low.init Ch.init) strandRun).map (fun p => (p.1.sh, p.1.pc 1,
      (p.1.step (obj .sync) (.run 1)).isNone))) = some (⟨[], false⟩, .pYield .full .syncW, true) := by decide
  have h'' : ((runs (Low.step (obj .sync)) (Low.init Ch.init) strandRun).map (fun p => (p.1.pc 2, p.1.pc 3))) =
      some (.idle, .idle) := by decide
  cases hr : runs (Low.step (obj .sync)) (Low.init (Ch.init : Ch Nat)) strandRun with
  | none => rw [hr] at h; simp at h
  | some p =>
    obtain ⟨s, es⟩ := p
    rw [hr] at h h' h''
    simp only [Option.map_some, Option.some.injEq, Prod.mk.injEq, Option.isNone_iff_eq_none] at h h' h''
    have h1 := h
    obtain ⟨h2, h3, h6⟩ := h'
    obtain ⟨h4, h5⟩ := h''
    refine ⟨s, es, hr, ?_, ?_, ?_, ?_, h2, h3, h4, h5, h6, ?_⟩
    · subst h1
      intro t k hm
      simp only [List.mem_cons, Ev.call.injEq, reduceCtorEq, false_or, List.not_mem_nil, or_false] at hm
      rcases hm with ⟨_, rfl⟩ | ⟨_, rfl⟩ | ⟨_, rfl⟩ | ⟨_, rfl⟩ <;> trivial
    · subst h1; rfl
    · subst h1; simp
    · subst h1; simp
    · subst h1; simp

/-- C38, what else goes wrong: a producer that finds the unbuffered channel occupied never gets its value in, however often
the channel becomes free; its push can only return false. (`t` waits in the queue of `cv_full__` in `s`; `fs` is any
continuation.) -/
theorem C38_waiting_producer_never_enters_negation (as bs : List (Act (Op α))) (s s' : LowSt α) (es fs : Trace α)
    (h : Exec .sync as s es) (t : Tid) (v : α) (ht : s.abs.th t = .parked .full (.pushW v))
    (hb : runs (Low.step (obj .sync)) s bs = some (s', fs)) :
    ((∀ w, .lin (.accepted t w) ∉ fs) ∧ ∀ r, .ret t r ∉ fs) ∨
      ∃ pre post, fs = pre ++ .ret t (.pushed false) :: post ∧ (∀ w, .lin (.accepted t w) ∉ pre) ∧
        ∀ r, .ret t r ∉ pre := by
  have hI := runs_inv Low.Inv (Low.inv_step (o := obj .sync)) as _ s es (Low.inv_init _) h
  obtain ⟨cs, hcs⟩ := refine_runs (obj .sync) bs s s' fs hI hb
  have key : ∀ (cs : List (AAct (Op α))) (a a' : AbsSt α) (fs : Trace α), Shut t a →
      runs (Abs.step (obj .sync)) a cs = some (a', fs) → ((∀ w, .lin (.accepted t w) ∉ fs) ∧ ∀ r, .ret t r ∉ fs) ∨
      ∃ pre post, fs = pre ++ .ret t (.pushed false) :: post ∧ (∀ w, .lin (.accepted t w) ∉ pre) ∧
        ∀ r, .ret t r ∉ pre := by
    intro cs
    induction cs with
    | nil =>
      intro a a' fs _ hr
      simp only [runs, Option.some.injEq, Prod.mk.injEq] at hr
      rw [← hr.2]; simp
    | cons x cs ih =>
      intro a a' fs hS hr
      obtain ⟨a1, e1, e2, h1, h2, rfl⟩ := runs_cons hr
      rcases shut_step t a x a1 e1 hS h1 with ⟨i1, i2, i3⟩ | rfl
      · rcases ih a1 a' e2 i1 h2 with ⟨j1, j2⟩ | ⟨pre, post, rfl, j1, j2⟩
        · left
          refine ⟨fun w hm => ?_, fun r hm => ?_⟩ <;> rcases List.mem_append.1 hm with hm | hm
          · exact i2 w hm
          · exact j1 w hm
          · exact i3 r hm
          · exact j2 r hm
        · right
          refine ⟨e1 ++ pre, post, by simp, fun w hm => ?_, fun r hm => ?_⟩ <;>
            rcases List.mem_append.1 hm with hm | hm
          · exact i2 w hm
          · exact j1 w hm
          · exact i3 r hm
          · exact j2 r hm
      · exact Or.inr ⟨[], e2, rfl, by simp, by simp⟩
  exact key cs s.abs s'.abs fs ⟨v, Or.inr (Or.inl ht)⟩ hcs

/-- Such a producer exists: 2 sends while the value of 1 has not been received. -/
example : (runs (Low.step (obj .sync)) (Low.init Ch.init) ([.call 1 (.push 10)] ++ List.replicate 10 (.run 1) ++
      [.call 2 (.push 20)] ++ List.replicate 7 (.run 2))).map (fun p => p.1.abs.th 2) =
    some (.parked .full (.pushW 20)) := by decide

/-! ## C39 -/

/-- C39. One step of a range-for loop either enters the body with the value just received from the channel, or ends the
loop, having found the channel closed and drained (`C35_drained_only_when_closed_and_empty`). The body is never entered
without a value. -/
theorem C39_loop_step (as : List (Act (Op α))) (s : LowSt α) (pre mid post : Trace α) (t : Tid) (r : Res α)
    (h : Exec kd as s (pre ++ (.call t .next :: mid ++ [.ret t r]) ++ post))
    (hc : Client (pre ++ (.call t .next :: mid ++ [.ret t r]) ++ post)) (hm : ∀ r, .ret t r ∉ mid) :
    (∃ v, r = .item v ∧ own t mid = [.got t v]) ∨ (r = .stop ∧ own t mid = [.drained t]) := by
  obtain ⟨q, h1, _⟩ := sim_reach kd as s _ h hc
  obtain ⟨q1, h2, _⟩ := h1.split
  obtain ⟨q2, _, h3⟩ := h2.split
  obtain ⟨e, h4, h5⟩ := matched h3 hm
  cases h5 with
  | item v => exact Or.inl ⟨v, rfl, h4⟩
  | stop => exact Or.inr ⟨rfl, h4⟩

/-- C39. Nobody ever dereferences an empty `value__`. -/
theorem C39_never_null (as : List (Act (Op α))) (s : LowSt α) (es : Trace α) (h : Exec kd as s es) (hc : Client es)
    (t : Tid) : .ret t .nullDeref ∉ es := by
  intro hm
  obtain ⟨q, h1, _⟩ := sim_reach kd as s es h hc
  obtain ⟨p1, p2, rfl⟩ := List.append_of_mem hm
  obtain ⟨q1, h2, h3⟩ := h1.split
  have : ∀ u, q1.th u ≠ .finished .nullDeref := by
    refine h2.inv (fun q => ∀ u, q.th u ≠ .finished .nullDeref) ?_ (by simp [Q.init])
    intro q e q' hI hs u
    have := hI u
    cases hs <;> simp only [upd] <;> split <;> simp_all
  cases h3 with
  | cons h4 _ => cases h4 with | ret h5 => exact this t h5

/-- The values a loop in coroutine `t` has seen. (Concerns co_chan.h:21-386.) -/
def items (t : Tid) : Trace α → List α
  | [] => []
  | .ret u (.item v) :: es => if u = t then v :: items t es else items t es
  | _ :: es => items t es

theorem items_append (t : Tid) (es fs : Trace α) : items t (es ++ fs) = items t es ++ items t fs := by
  induction es with
  | nil => rfl
  | cons e es ih =>
    rcases e with _ | _ | ⟨u, r⟩
    · simp [items, ih]
    · simp [items, ih]
    · cases r <;> simp only [List.cons_append, items, ih]
      split <;> simp

/-- The item a coroutine has in a push that is not complete. (Concerns co_chan.h:21-386.) -/
def pend (t : Tid) (q : Q α) : List α :=
  match q.th t with
  | .finished (.item v) => [v]
  | _ => []

theorem loop_path {t : Tid} {q q' : Q α} {es : Trace α} (h : Path (Step kd) q es q')
    (hc : ∀ u k, .call u k ∈ es → (k = .pop ∨ k = .next → u = t) ∧ (u = t → k = .next))
    (hq : ∀ u, q.th u = .popping ∨ q.th u = .looping → u = t) (ht : q.th t ≠ .popping) :
    pend t q ++ gotVals es = items t es ++ pend t q' := by
  induction h with
  | nil => simp [gotVals, items]
  | @cons q q1 q2 e es h hs ih =>
    have hc' := fun u k hm => hc u k (List.mem_cons_of_mem _ hm)
    have he := fun u k (hk : e = .call u k) => hc u k (by simp [hk])
    have hg : gotVals (e :: es) = gotVals [e] ++ gotVals es := gotVals_append [e] es
    have hi : items t (e :: es) = items t [e] ++ items t es := items_append t [e] es
    have h1 : (∀ u, q1.th u = .popping ∨ q1.th u = .looping → u = t) ∧ q1.th t ≠ .popping := by
      have hx := fun u => hq u
      cases h <;> refine ⟨fun u hu => ?_, ?_⟩ <;> simp only [upd] at * <;> grind
    have h2 : pend t q ++ gotVals [e] = items t [e] ++ pend t q1 := by
      cases h with
      | @got x v rest hx hd => exact absurd hx (by have := hq x (Or.inl hx); rw [this]; exact ht)
      | @gotNext x v rest hx hd => have := hq x (Or.inr hx); subst this; simp [pend, gotVals, items, hx]
      | @ret x r hx =>
        by_cases hxt : x = t
        · subst hxt; cases r <;> simp [pend, gotVals, items, hx]
        · have hxt' : t ≠ x := fun h => hxt h.symm
          cases r <;> simp [pend, gotVals, items, hxt, hxt']
      | @callPush x _ hx | @callPop x hx | @callNext x hx | @callClose x hx | @callIsClosed x hx | @callIsEmpty x hx
      | @accepted x _ hx | @refused x _ hx | @drained x hx | @drainedNext x hx | @closes x hx | @saysClosed x hx
      | @saysEmpty x _ hx | @retPush x _ hx =>
        all_goals
          by_cases hxt : x = t
          · subst hxt; simp [pend, gotVals, items, hx]
          · have hxt' : t ≠ x := fun h => hxt h.symm
            simp [pend, gotVals, items, hxt']
    have h3 := ih hc' h1.1 h1.2
    rw [hg, hi, ← List.append_assoc, h2, List.append_assoc, h3, List.append_assoc]

/-- C39. A loop that is the only receiver sees, when it has ended, exactly the values that ever entered the channel, in
order. -/
theorem C39_loop_sees_everything (as : List (Act (Op α))) (s : LowSt α) (es : Trace α) (h : Exec kd as s es)
    (hc : Client es) (t : Tid)
    (ho : ∀ u k, .call u k ∈ es → (k = .pop ∨ k = .next → u = t) ∧ (u = t → k = .next))
    (hstop : .ret t .stop ∈ es) : items t es = accVals es := by
  obtain ⟨q, h1, _⟩ := sim_reach kd as s es h hc
  have h0 : (∀ u, (Q.init : Q α).th u = .popping ∨ (Q.init : Q α).th u = .looping → u = t) ∧
      (Q.init : Q α).th t ≠ .popping := by simp [Q.init]
  have h2 := loop_path h1 ho h0.1 h0.2
  obtain ⟨p1, p2, rfl⟩ := List.append_of_mem hstop
  obtain ⟨q1, h3, h4⟩ := h1.split
  have h5 := loop_path h3 (fun u k hm => ho u k (by simp [hm])) h0.1 h0.2
  cases h4 with
  | cons h6 h7 =>
    cases h6 with
    | ret h8 =>
      have h9 := (ok_closed h3).2 t (Or.inl h8)
      have f1 := path_facts h3
      have f2 := path_facts h7
      have h10 := (f2.2.2.2.1 h9.1).2
      have h11 : gotVals p2 = [] := by
        have := f2.1
        simp only [h9.2, h10, List.append_nil] at this
        simp at this; exact this.1
      have g : gotVals (p1 ++ .ret t .stop :: p2) = gotVals p1 := by
        rw [gotVals_append]; simp [gotVals, h11]
      have g2 : accVals (p1 ++ .ret t .stop :: p2) = accVals p1 := by
        rw [accVals_append]; simp [accVals, h10]
      have g3 : items t (p1 ++ .ret t .stop :: p2) = items t p1 ++ items t p2 := by
        rw [items_append]; simp [items]
      have e1 : pend t q1 = [] := by simp [pend, h8]
      have e0 : pend t (Q.init : Q α) = [] := rfl
      rw [e0, List.nil_append, g, g3] at h2
      rw [e0, List.nil_append, e1, List.append_nil] at h5
      rw [h5, List.append_assoc] at h2
      have h12 := List.append_cancel_left (as := items t p1) (bs := []) (cs := items t p2 ++ pend t q) (by simpa using h2)
      have h13 : items t p2 = [] := by
        have := h12.symm; simp at this; exact this.1
      have h14 := f1.1
      rw [h9.2] at h14
      simp only [Q.init, List.nil_append, List.append_nil] at h14
      rw [g2, g3, h13, List.append_nil, h14, h5]

/-- A loop over an unbuffered channel: one value, then the channel is closed while the loop waits for the next. -/
example : (runs (Low.step (obj .sync)) (Low.init Ch.init) ([.call 1 (.push 10)] ++ List.replicate 10 (.run 1) ++
      [.call 2 .next] ++ List.replicate 10 (.run 2) ++ List.replicate 4 (.run 1) ++ [.call 2 .next] ++
      List.replicate 7 (.run 2) ++ [.call 3 .close] ++ List.replicate 12 (.run 3) ++ List.replicate 10 (.run 2))).map
      (fun p => (items 2 p.2, accVals p.2, p.2.getLast?)) = some ([10], [10], some (.ret 2 .stop)) := by decide

end
end Verif.Chan
