import Verif.Sync.Latch
import Verif.Monitor.Lib

/-! # Properties of co_latch (C26) -/

namespace Verif.Latch
open Monitor

/-- Abbreviation, no counterpart in the code. (Concerns co_latch.cpp:14-45.) -/
abbrev LowSt := Low Int Unit Op Res
/-- Abbreviation, no counterpart in the code. (Concerns co_latch.cpp:14-45.) -/
abbrev AbsSt := Abs Int Unit Op Res
/-- Abbreviation, no counterpart in the code. (Concerns co_latch.cpp:14-45.) -/
abbrev Trace := List (Ev Op Res Lin)

/-- What the specification says a coroutine in this abstract state is doing. (Concerns co_latch.cpp:14-45.) -/
def qth : Th Unit Op Res → QTh
  | .idle => .idle
  | .ready (.countDown n) | .parked _ (.countDown n) => .counting n false
  | .ready (.arriveWait n) | .parked _ (.arriveWait n) => .counting n true
  | .ready .tryWait | .parked _ .tryWait => .looking
  | .ready .wait | .parked _ .wait => .waiting
  | .leaving r => .finished r

theorem qth_settle (wq : Unit → List Tid) (u : Tid) (x : Th Unit Op Res) : qth (settle wq u x) = qth x := by
  cases x with
  | parked c k => simp only [settle]; split <;> cases k <;> rfl
  | _ => rfl

/-- Proof device: the simulation relation. (Concerns co_latch.cpp:14-45.) -/
structure R (a : AbsSt) (q : Q) : Prop where
  left : q.left = a.sh
  th : ∀ t, q.th t = qth (a.th t)
  nonneg : 0 ≤ a.sh

theorem R_after {a : AbsSt} {q : Q} {t : Tid} {k : Op} (hR : R a q) (x : QTh)
    (hx : x = qth (obj.body t k a.sh).fin.th) : ∀ u, upd q.th t x u = qth ((after obj a t k).th u) := by
  intro u
  by_cases hu : u = t
  · subst hu; simp [after_self, hx]
  · simp only [upd_other _ _ hu, after_th hu, qth_settle, hR.th]

theorem sim (a : AbsSt) (x : AAct Op) (a' : AbsSt) (es : Trace) (q : Q) (hR : R a q)
    (hs : a.step obj x = some (a', es)) : ∃ q', accepts acc q es = some q' ∧ R a' q' := by
  have h1 := hR.left
  have h2 := hR.th
  have h3 := hR.nonneg
  cases x with
  | call t k =>
    obtain ⟨ht, rfl, rfl⟩ := call_inv hs
    have hq : q.th t = .idle := by rw [h2, ht]; rfl
    cases k
    all_goals
      simp only [accepts, acc, hq, if_true, Option.bind_some]
      refine ⟨_, rfl, h1, fun u => ?_, h3⟩
      by_cases hu : u = t
      · subst hu; simp [qth]
      · simp [hu, h2]
  | leave t =>
    obtain ⟨v, ht, rfl, rfl⟩ := leave_inv hs
    have hq : q.th t = .finished v := by rw [h2, ht]; rfl
    simp only [accepts, acc, hq, if_true, Option.bind_some]
    refine ⟨_, rfl, h1, fun u => ?_, h3⟩
    by_cases hu : u = t
    · subst hu; simp [qth]
    · simp [hu, h2]
  | run t =>
    obtain ⟨k, ht, rfl, rfl⟩ := run_inv hs
    have hq : q.th t = qth (.ready k) := by rw [h2, ht]
    cases k with
    | countDown n =>
      by_cases hc : a.sh < n
      · have hb : obj.body t (.countDown n) a.sh = ⟨a.sh, [.refused t n], [], .ret .threw⟩ := by simp [obj, hc]
        have hcond : q.left < n ∧ (q.th t = .counting n false ∨ q.th t = .counting n true) :=
          ⟨by omega, Or.inl (by rw [hq]; rfl)⟩
        simp only [hb, List.map_cons, List.map_nil, accepts, acc, if_pos hcond, Option.bind_some]
        exact ⟨_, rfl, by simpa [after, hb] using h1, R_after hR _ (by rw [hb]; rfl), by simpa [after, hb] using h3⟩
      · have hb : obj.body t (.countDown n) a.sh =
            ⟨a.sh - n, [.down t n], if a.sh - n = 0 then [.all ()] else [], .ret .done⟩ := by simp [obj, hc]
        have hcond : n ≤ q.left := by omega
        have hq' : q.th t = .counting n false := hq
        simp only [hb, List.map_cons, List.map_nil, accepts, acc, if_pos hcond, if_pos hq', Option.bind_some]
        exact ⟨_, rfl, by simp [after, hb, h1], R_after hR _ (by rw [hb]; rfl), by simp [after, hb]; omega⟩
    | arriveWait n =>
      by_cases hc : a.sh < n
      · have hb : obj.body t (.arriveWait n) a.sh = ⟨a.sh, [.refused t n], [], .ret .threw⟩ := by simp [obj, hc]
        have hcond : q.left < n ∧ (q.th t = .counting n false ∨ q.th t = .counting n true) :=
          ⟨by omega, Or.inr (by rw [hq]; rfl)⟩
        simp only [hb, List.map_cons, List.map_nil, accepts, acc, if_pos hcond, Option.bind_some]
        exact ⟨_, rfl, by simpa [after, hb] using h1, R_after hR _ (by rw [hb]; rfl), by simpa [after, hb] using h3⟩
      · have hb : obj.body t (.arriveWait n) a.sh =
            ⟨a.sh - n, [.down t n], if a.sh - n = 0 then [.all ()] else [], .next .wait⟩ := by simp [obj, hc]
        have hcond : n ≤ q.left := by omega
        have hq' : q.th t = .counting n true := hq
        have hq'' : ¬ q.th t = .counting n false := by rw [hq']; simp
        simp only [hb, List.map_cons, List.map_nil, accepts, acc, if_pos hcond, if_neg hq'', if_pos hq',
          Option.bind_some]
        exact ⟨_, rfl, by simp [after, hb, h1], R_after hR _ (by rw [hb]; rfl), by simp [after, hb]; omega⟩
    | tryWait =>
      have hb : obj.body t .tryWait a.sh =
        ⟨a.sh, [.looked t (decide (a.sh = 0))], [], .ret (.tried (decide (a.sh = 0)))⟩ := rfl
      have hcond : decide (a.sh = 0) = decide (q.left = 0) ∧ q.th t = .looking := ⟨by rw [h1], by rw [hq]; rfl⟩
      simp only [hb, List.map_cons, List.map_nil, accepts, acc, if_pos hcond, Option.bind_some]
      exact ⟨_, rfl, by simpa [after, hb] using h1, R_after hR _ (by rw [hb]; rfl), by simpa [after, hb] using h3⟩
    | wait =>
      by_cases hc : a.sh > 0
      · have hb : obj.body t .wait a.sh = ⟨a.sh, [], [], .park () .wait⟩ := by simp [obj, hc]
        simp only [hb, List.map_nil, accepts]
        refine ⟨_, rfl, by simpa [after, hb] using h1, ?_, by simpa [after, hb] using h3⟩
        intro u
        have := R_after hR (t := t) (k := .wait) (q.th t) (by rw [hb, hq]; rfl) u
        rw [← this]
        by_cases hu : u = t
        · subst hu; simp
        · simp [hu]
      · have hb : obj.body t .wait a.sh = ⟨a.sh, [.passed t], [], .ret .done⟩ := by simp [obj, hc]
        have hcond : q.left = 0 ∧ q.th t = .waiting := ⟨by omega, by rw [hq]; rfl⟩
        simp only [hb, List.map_cons, List.map_nil, accepts, acc, if_pos hcond, Option.bind_some]
        exact ⟨_, rfl, by simpa [after, hb] using h1, R_after hR _ (by rw [hb]; rfl), by simpa [after, hb] using h3⟩

theorem sim_reach (e : Int) (he : 0 ≤ e) (as : List (Act Op)) (s : LowSt) (es : Trace)
    (h : runs (Low.step obj) (Low.init e) as = some (s, es)) :
    ∃ q, accepts acc (Q.init e) es = some q ∧ R s.abs q :=
  abs_sim obj acc e (Q.init e) R ⟨rfl, fun _ => rfl, he⟩ (fun a x a' es q _ hR hs => sim a x a' es q hR hs)
    as s es h

/-- C26. For every expected count and every schedule the trace is one of a correct latch: excess `count_down`s throw
and change nothing, `wait` returns only when everything has been counted down. -/
theorem C26_latch_correct (e : Int) (he : 0 ≤ e) (as : List (Act Op)) (s : LowSt) (es : Trace)
    (h : runs (Low.step obj) (Low.init e) as = some (s, es)) : Correct e es := by
  obtain ⟨q, hq, _⟩ := sim_reach e he as s es h
  exact ⟨q, hq⟩

/-- What has been counted down in a trace. (Concerns co_latch.cpp:14-45.) -/
def counted (es : Trace) : Int :=
  (es.map fun e => match e with | .lin (.down _ n) => (n : Int) | _ => 0).sum

theorem counted_append (es fs : Trace) : counted (es ++ fs) = counted es + counted fs := by simp [counted]

theorem counted_spec (es : Trace) (q q' : Q) (h : accepts acc q es = some q') : q'.left = q.left - counted es := by
  induction es generalizing q with
  | nil => simp only [accepts, Option.some.injEq] at h; subst h; simp [counted]
  | cons e es ih =>
    simp only [accepts] at h
    cases he : acc q e with
    | none => simp [he] at h
    | some q1 =>
      simp only [he, Option.bind_some] at h
      have h1 := ih q1 h
      have h2 : q1.left = q.left - counted [e] := by
        cases e with
        | call t k => cases k <;> simp only [acc] at he <;> split at he <;> cases he <;> simp [counted]
        | ret t b => simp only [acc] at he; split at he <;> cases he; simp [counted]
        | lin e =>
          cases e <;> simp only [acc] at he <;> split at he <;> try cases he
          all_goals first | (simp [counted]; done) | skip
          split at he
          · cases he; simp [counted]
          · split at he <;> cases he; simp [counted]
      have h3 := counted_append [e] es
      simp only [List.cons_append, List.nil_append] at h3
      omega

/-- C26. Whenever a coroutine gets past the latch, the count-downs so far add up to the expected count. -/
theorem C26_passes_only_at_zero (e : Int) (he : 0 ≤ e) (as : List (Act Op)) (s : LowSt) (es pre post : Trace) (t : Tid)
    (h : runs (Low.step obj) (Low.init e) as = some (s, es)) (hes : es = pre ++ .lin (.passed t) :: post) :
    counted pre = e := by
  obtain ⟨q, hq, _⟩ := sim_reach e he as s es h
  rw [hes, accepts_append] at hq
  cases hp : accepts acc (Q.init e) pre with
  | none => simp [hp] at hq
  | some q1 =>
    have h1 := counted_spec pre _ _ hp
    simp only [hp, Option.bind_some, accepts, acc] at hq
    split at hq
    · rename_i hc
      simp only [Q.init] at h1
      omega
    · cases hq

/-- C26. Once open it stays open: after any execution from an open state the latch is open. -/
theorem C26_stays_open (e : Int) (he : 0 ≤ e) (as bs : List (Act Op)) (s s' : LowSt) (es fs : Trace)
    (h : runs (Low.step obj) (Low.init e) as = some (s, es)) (h0 : s.sh = 0)
    (h' : runs (Low.step obj) s bs = some (s', fs)) : s'.sh = 0 := by
  obtain ⟨q, hq, hR⟩ := sim_reach e he as s es h
  obtain ⟨q', hq', hR'⟩ := sim_reach e he _ s' _ (runs_append h h')
  have h1 := counted_spec _ _ _ hq
  have h2 := counted_spec _ _ _ hq'
  rw [counted_append] at h2
  have h3 : 0 ≤ counted fs := by
    simp only [counted]
    apply Int.le_trans (b := 0) (by omega)
    clear h' hq' h2
    induction fs with
    | nil => simp
    | cons e fs ih =>
      simp only [List.map_cons, List.sum_cons]
      have : 0 ≤ (match e with | .lin (.down _ n) => (n : Int) | _ => 0 : Int) := by
        split <;> omega
      omega
  have h4 : q.left = s.sh := hR.left
  have h5 : q'.left = s'.sh := hR'.left
  have h6 : 0 ≤ s'.sh := hR'.nonneg
  omega

/-- Waiters exist only while the latch is shut. (Concerns co_latch.cpp:14-45.) -/
structure Live (a : AbsSt) : Prop where
  kind : ∀ t k, a.th t = .parked () k → k = .wait
  shut : a.wq () ≠ [] → 0 < a.sh

theorem live_count {a : AbsSt} {t : Tid} {k : Op} {n : Nat} {ev : List Lin} {f : Fin Unit Op Res} (hL : Live a)
    (h3 : 0 ≤ a.sh) (hc : ¬ a.sh < n)
    (hb : obj.body t k a.sh = ⟨a.sh - n, ev, if a.sh - n = 0 then [.all ()] else [], f⟩)
    (hf : ∀ c j, f ≠ .park c j) : Live (after obj a t k) := by
  have hfin : (obj.body t k a.sh).fin = f := by rw [hb]
  refine ⟨fun u j hu => ?_, fun h => ?_⟩
  · by_cases hut : u = t
    · subst hut
      rw [after_self, hfin] at hu
      cases f with
      | park c j => exact absurd rfl (hf c j)
      | _ => cases hu
    · exact hL.kind u j (after_parked hut hu).1
  · have hen : ∀ wq : Unit → List Tid, enqueue wq t f = wq := by
      intro wq
      cases f with
      | park c j => exact absurd rfl (hf c j)
      | _ => rfl
    simp only [after, hb, hen] at h ⊢
    by_cases hz : a.sh - n = 0
    · simp [hz, notify] at h
    · omega

theorem live_same {a : AbsSt} {t : Tid} {k : Op} {ev : List Lin} {r : Res} (hL : Live a)
    (hb : obj.body t k a.sh = ⟨a.sh, ev, [], .ret r⟩) : Live (after obj a t k) := by
  refine ⟨fun u j hu => ?_, fun h => ?_⟩
  · by_cases hut : u = t
    · subst hut; rw [after_self, hb] at hu; cases hu
    · exact hL.kind u j (after_parked hut hu).1
  · simp only [after, hb, enqueue, List.foldl_nil] at h ⊢
    exact hL.shut h

theorem live_step (a : AbsSt) (x : AAct Op) (a' : AbsSt) (es : Trace) (hL : Live a) (h3 : 0 ≤ a.sh)
    (hs : a.step obj x = some (a', es)) : Live a' := by
  cases x with
  | call t k =>
    obtain ⟨ht, rfl, _⟩ := call_inv hs
    refine ⟨fun u j hu => ?_, hL.shut⟩
    by_cases hut : u = t
    · subst hut; simp at hu
    · simp only [upd_other _ _ hut] at hu; exact hL.kind u j hu
  | leave t =>
    obtain ⟨v, ht, rfl, _⟩ := leave_inv hs
    refine ⟨fun u j hu => ?_, hL.shut⟩
    by_cases hut : u = t
    · subst hut; simp at hu
    · simp only [upd_other _ _ hut] at hu; exact hL.kind u j hu
  | run t =>
    obtain ⟨k, ht, rfl, _⟩ := run_inv hs
    cases k with
    | countDown n =>
      by_cases hc : a.sh < n
      · exact live_same hL (by simp [obj, hc]; exact ⟨rfl, rfl⟩)
      · exact live_count (n := n) hL h3 hc (by simp [obj, hc]; exact ⟨rfl, rfl⟩) (by intro c j h; cases h)
    | arriveWait n =>
      by_cases hc : a.sh < n
      · exact live_same hL (by simp [obj, hc]; exact ⟨rfl, rfl⟩)
      · exact live_count (n := n) hL h3 hc (by simp [obj, hc]; exact ⟨rfl, rfl⟩) (by intro c j h; cases h)
    | tryWait => exact live_same hL rfl
    | wait =>
      by_cases hc : a.sh > 0
      · have hb : obj.body t .wait a.sh = ⟨a.sh, [], [], .park () .wait⟩ := by simp [obj, hc]
        refine ⟨fun u j hu => ?_, fun _ => by simpa [after, hb] using hc⟩
        by_cases hut : u = t
        · subst hut; rw [after_self, hb] at hu; cases hu; rfl
        · exact hL.kind u j (after_parked hut hu).1
      · exact live_same hL (by simp [obj, hc]; exact ⟨rfl, rfl⟩)

/-- C26. Every waiter is released: if no coroutine inside a call can make a step and somebody is still inside, they are in
`wait()` and the latch is not open. -/
theorem C26_releases_everybody (e : Int) (he : 0 ≤ e) (as : List (Act Op)) (s : LowSt) (es : Trace)
    (h : runs (Low.step obj) (Low.init e) as = some (s, es)) (hst : ∀ t, s.step obj (.run t) = none) (t : Tid)
    (ht : s.pc t ≠ .idle) : s.pc t = .pYield () .wait ∧ 0 < s.sh := by
  have hL := abs_inv obj e as s es h (fun a => Live a ∧ 0 ≤ a.sh)
    ⟨⟨by simp [Abs.init], by simp [Abs.init]⟩, he⟩ (fun a x a' es _ hh hs => by
      refine ⟨live_step a x a' es hh.1 hh.2 hs, ?_⟩
      obtain ⟨q', _, hR'⟩ := sim a x a' es ⟨a.sh, fun t => qth (a.th t)⟩ ⟨rfl, fun _ => rfl, hh.2⟩ hs
      exact hR'.nonneg)
  rcases C22_stuck_only_parked obj e s ⟨as, es, h⟩ hst t with ⟨hh, _⟩ | ⟨c, j, hpc, _, hmem, hth, hwq⟩
  · exact absurd hh ht
  · have h1 := hL.1.kind t j hth
    subst h1
    exact ⟨hpc, hL.1.shut (by rw [hwq]; exact List.ne_nil_of_mem hmem)⟩

theorem shrinks : ∃ rem, Shrinks obj rem := by
  refine ⟨fun k => match k with | .arriveWait _ => 2 | _ => 1, ?_⟩
  intro t k sh
  cases k with
  | countDown n => by_cases hc : sh < n <;> simp [obj, hc]
  | arriveWait n => by_cases hc : sh < n <;> simp [obj, hc]
  | tryWait => simp [obj]
  | wait => by_cases hc : sh > 0 <;> simp [obj, hc]

/-- C26. Without new calls every execution is finite. -/
theorem C26_terminates (e : Int) (as : List (Act Op)) (s : LowSt) (es : Trace)
    (h : runs (Low.step obj) (Low.init e) as = some (s, es)) :
    ¬ ∃ f : Nat → LowSt, f 0 = s ∧ ∀ n, ∃ t e, (f n).step obj (.run t) = some (f (n + 1), e) := by
  obtain ⟨rem, hr⟩ := shrinks
  exact terminates obj rem hr e as s es h

/-- A latch of 3: 1 waits; 2 counts down 2 and waits (`arrive_and_wait(2)`); 3 asks for 2 more, which is refused, then
counts down 1; both waiters pass. (Concerns co_latch.cpp:14-45.) -/
def demo : List (Act Op) :=
  [.call 1 .wait] ++ List.replicate 7 (.run 1) ++ [.call 2 (.arriveWait 2)] ++ List.replicate 10 (.run 2) ++
  [.call 3 (.countDown 2)] ++ List.replicate 3 (.run 3) ++ [.call 3 (.countDown 1)] ++ List.replicate 9 (.run 3) ++
  List.replicate 4 (.run 2) ++ List.replicate 4 (.run 1)

example : (runs (Low.step obj) (Low.init 3) demo).map (fun p => (p.1.sh, p.2)) =
    some (0, [.call 1 .wait, .call 2 (.arriveWait 2), .lin (.down 2 2), .call 3 (.countDown 2), .lin (.refused 3 2),
      .ret 3 .threw, .call 3 (.countDown 1), .lin (.down 3 1), .ret 3 .done, .lin (.passed 2), .ret 2 .done,
      .lin (.passed 1), .ret 1 .done]) := by decide

/-- Shut, with a waiter, nobody can move. -/
example : (runs (Low.step obj) (Low.init 3) ([.call 1 .wait] ++ List.replicate 7 (.run 1))).map
    (fun p => (p.1.pc 1, p.1.sh, (p.1.step obj (.run 1)).isNone)) = some (.pYield () .wait, 3, true) := by decide

end Verif.Latch
