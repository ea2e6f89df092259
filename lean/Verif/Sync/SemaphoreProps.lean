import Verif.Sync.Semaphore
import Verif.Monitor.Lib

/-! # Properties of co_counting_semaphore (C23 – C25) -/

namespace Verif.Semaphore
open Monitor

/-- Abbreviation, no counterpart in the code. (Concerns co_counting_semaphore.h:19-118.) -/
abbrev LowSt := Low Int Cv Op Bool
/-- Abbreviation, no counterpart in the code. (Concerns co_counting_semaphore.h:19-118.) -/
abbrev AbsSt := Abs Int Cv Op Bool
/-- Abbreviation, no counterpart in the code. (Concerns co_counting_semaphore.h:19-118.) -/
abbrev Trace := List (Ev Op Bool Lin)

/-- What the specification says a coroutine in this abstract state is doing. (Concerns co_counting_semaphore.h:19-118.) -/
def qth : Th Cv Op Bool → QTh
  | .idle => .idle
  | .ready .acquire | .parked _ .acquire => .acquiring
  | .ready (.release n) | .parked _ (.release n) => .releasing n
  | .ready .tryAcquire | .parked _ .tryAcquire => .trying
  | .leaving b => .finished b

theorem qth_settle (wq : Cv → List Tid) (u : Tid) (x : Th Cv Op Bool) : qth (settle wq u x) = qth x := by
  cases x with
  | parked c k => simp only [settle]; split <;> cases k <;> rfl
  | _ => rfl

/-- Proof device: the simulation relation. (Concerns co_counting_semaphore.h:19-118.) -/
structure R (M : Int) (a : AbsSt) (q : Q) : Prop where
  permits : q.permits = a.sh
  th : ∀ t, q.th t = qth (a.th t)
  range : 0 ≤ a.sh ∧ a.sh ≤ M

theorem sim (M : Int) (a : AbsSt) (x : AAct Op) (a' : AbsSt) (es : Trace) (q : Q) (hR : R M a q)
    (hs : a.step (obj M) x = some (a', es)) : ∃ q', accepts (acc M) q es = some q' ∧ R M a' q' := by
  obtain ⟨h1, h2, h3⟩ := hR
  have hu : ∀ (f : Tid → Th Cv Op Bool) (t : Tid) (p : Th Cv Op Bool) (wq : Cv → List Tid), (∀ u, q.th u = qth (f u)) →
      ∀ u, upd q.th t (qth p) u = qth (upd (fun u => settle wq u (f u)) t p u) := by
    intro f t p wq hf u
    by_cases hu : u = t
    · subst hu; simp
    · simp [hu, qth_settle, hf]
  cases x with
  | call t k =>
    simp only [Abs.step] at hs
    split at hs <;> cases hs
    rename_i ht
    have hq : q.th t = .idle := by rw [h2, ht]; rfl
    cases k
    all_goals
      simp only [accepts, acc, hq, if_true, Option.bind_some]
      refine ⟨_, rfl, h1, fun u => ?_, h3⟩
      by_cases hu : u = t
      · subst hu; simp [qth]
      · simp [hu, h2]
  | leave t =>
    simp only [Abs.step] at hs
    split at hs <;> cases hs
    rename_i v ht
    have hq : q.th t = .finished v := by rw [h2, ht]; rfl
    simp only [accepts, acc, hq, if_true, Option.bind_some]
    refine ⟨_, rfl, h1, fun u => ?_, h3⟩
    by_cases hu : u = t
    · subst hu; simp [qth]
    · simp [hu, h2]
  | run t =>
    simp only [Abs.step] at hs
    split at hs <;> cases hs
    rename_i k ht
    have hq : q.th t = qth (.ready k) := by rw [h2, ht]
    have hself : ∀ u, q.th u = upd q.th t (qth (.ready k)) u := by
      intro u; by_cases hu : u = t
      · subst hu; simp [hq]
      · simp [hu]
    cases k with
    | acquire =>
      simp only [obj]
      split
      · refine ⟨q, rfl, h1, fun u => ?_, h3⟩
        rw [hself u]
        exact hu a.th t (.parked .empty .acquire) _ h2 u
      · rename_i hd
        have hc : 0 < q.permits ∧ (q.th t = .acquiring ∨ q.th t = .trying) :=
          ⟨by omega, Or.inl (by rw [hq]; rfl)⟩
        simp only [List.map_cons, List.map_nil, accepts, acc, if_pos hc, Option.bind_some]
        exact ⟨_, rfl, by simp [h1], hu a.th t (.leaving true) _ h2, by simp only; omega⟩
    | tryAcquire =>
      simp only [obj]
      split
      · rename_i hd
        have hc : q.permits = 0 ∧ q.th t = .trying := ⟨by omega, by rw [hq]; rfl⟩
        simp only [List.map_cons, List.map_nil, accepts, acc, if_pos hc, Option.bind_some]
        exact ⟨_, rfl, h1, hu a.th t (.leaving false) _ h2, h3⟩
      · rename_i hd
        have hc : 0 < q.permits ∧ (q.th t = .acquiring ∨ q.th t = .trying) :=
          ⟨by omega, Or.inr (by rw [hq]; rfl)⟩
        simp only [List.map_cons, List.map_nil, accepts, acc, if_pos hc, Option.bind_some]
        exact ⟨_, rfl, by simp [h1], hu a.th t (.leaving true) _ h2, by simp only; omega⟩
    | release n =>
      simp only [obj]
      split
      · refine ⟨q, rfl, h1, fun u => ?_, h3⟩
        rw [hself u]
        exact hu a.th t (.parked .full (.release n)) _ h2 u
      · rename_i hd
        have hc : q.permits < M := by omega
        cases n with
        | zero =>
          have hq' : q.th t = .releasing 0 := hq
          simp only [List.map_cons, List.map_nil, accepts, acc, if_pos hc, hq', Option.bind_some]
          exact ⟨_, rfl, by simp [h1], hu a.th t (.leaving true) _ h2, by simp only; omega⟩
        | succ n =>
          have hq' : q.th t = .releasing (n + 1) := hq
          simp only [List.map_cons, List.map_nil, accepts, acc, if_pos hc, hq', Option.bind_some]
          exact ⟨_, rfl, by simp [h1], hu a.th t (.ready (.release n)) _ h2, by simp only; omega⟩

theorem R_init (M d : Int) (h : 0 ≤ d ∧ d ≤ M) : R M (Abs.init d) (Q.init d) := ⟨rfl, fun _ => rfl, h⟩

/-- C23, C25. For every maximum, initial value in range, number of coroutines and schedule: the trace is one of a
correct semaphore. -/
theorem C23_semaphore_correct (M d : Int) (hd : 0 ≤ d ∧ d ≤ M) (as : List (Act Op)) (s : LowSt) (es : Trace)
    (h : runs (Low.step (obj M)) (Low.init d) as = some (s, es)) : Correct M d es := by
  obtain ⟨q, hq, _⟩ := abs_sim (obj M) (acc M) d (Q.init d) (R M) (R_init M d hd)
    (fun a x a' es q _ hR hs => sim M a x a' es q hR hs) as s es h
  exact ⟨q, hq⟩

/-- How many permits were taken in a trace. (Concerns co_counting_semaphore.h:19-118.) -/
def taken (es : Trace) : Nat := es.countP fun e => match e with | .lin (.took _) => true | _ => false
/-- How many permits were put back in a trace. (Concerns co_counting_semaphore.h:19-118.) -/
def given (es : Trace) : Nat := es.countP fun e => match e with | .lin (.gave _) => true | _ => false

theorem count_spec (M : Int) (es : Trace) (q q' : Q) (h : accepts (acc M) q es = some q') :
    q'.permits = q.permits + given es - taken es := by
  induction es generalizing q with
  | nil => simp only [accepts, Option.some.injEq] at h; subst h; simp [given, taken]
  | cons e es ih =>
    simp only [accepts] at h
    cases he : acc M q e with
    | none => simp [he] at h
    | some q1 =>
      simp only [he, Option.bind_some] at h
      have h1 := ih q1 h
      have h2 : q1.permits = q.permits + given [e] - taken [e] := by
        cases e with
        | call t k => cases k <;> simp only [acc] at he <;> split at he <;> cases he <;> simp [given, taken]
        | ret t b => simp only [acc] at he; split at he <;> cases he; simp [given, taken]
        | lin e =>
          cases e <;> simp only [acc] at he <;> split at he <;> try cases he
          all_goals first | (simp [given, taken]; done) | skip
          split at he <;> cases he <;> simp [given, taken]
      have h3 : given (e :: es) = given [e] + given es := by
        have := List.countP_append (p := fun e : Ev Op Bool Lin => match e with | .lin (.gave _) => true | _ => false)
          (l₁ := [e]) (l₂ := es)
        exact this
      have h4 : taken (e :: es) = taken [e] + taken es := by
        have := List.countP_append (p := fun e : Ev Op Bool Lin => match e with | .lin (.took _) => true | _ => false)
          (l₁ := [e]) (l₂ := es)
        exact this
      omega

/-- C23. At every moment `desired__` is the initial value plus the permits put back minus the permits taken so far,
between zero and the maximum (so the asserts of co_counting_semaphore.h:39, 53 and 75 never fail). -/
theorem C23_permits_conserved (M d : Int) (hd : 0 ≤ d ∧ d ≤ M) (as : List (Act Op)) (s : LowSt) (es : Trace)
    (h : runs (Low.step (obj M)) (Low.init d) as = some (s, es)) :
    s.sh = d + given es - taken es ∧ 0 ≤ s.sh ∧ s.sh ≤ M := by
  obtain ⟨q, hq, hR⟩ := abs_sim (obj M) (acc M) d (Q.init d) (R M) (R_init M d hd)
    (fun a x a' es q _ hR hs => sim M a x a' es q hR hs) as s es h
  have h1 := count_spec M es _ q hq
  have h2 : q.permits = s.sh := hR.permits
  rw [h2] at h1
  exact ⟨h1, hR.range⟩

/-- Coroutine 1 blocks in `acquire()`, 2 releases two permits of a semaphore with maximum 2 and initial value 0, 1
gets one of them, and 3 the other with `try_acquire()`; 4 fails. (Concerns co_counting_semaphore.h:19-118.) -/
def demo : List (Act Op) :=
  [.call 1 .acquire] ++ List.replicate 7 (.run 1) ++ [.call 2 (.release 1)] ++ List.replicate 13 (.run 2) ++
  List.replicate 7 (.run 1) ++ [.call 3 .tryAcquire] ++ List.replicate 6 (.run 3) ++
  [.call 4 .tryAcquire] ++ List.replicate 3 (.run 4)

example : (runs (Low.step (obj 2)) (Low.init 0) demo).map (fun p => (p.1.sh, p.2)) =
    some (0, [.call 1 .acquire, .call 2 (.release 1), .lin (.gave 2), .lin (.gave 2), .ret 2 true,
      .lin (.took 1), .ret 1 true, .call 3 .tryAcquire, .lin (.took 3), .ret 3 true,
      .call 4 .tryAcquire, .lin (.failed 4), .ret 4 false]) := by decide

/-! ## No permit is stranded -/

/-- The call is a release. (Concerns co_counting_semaphore.h:19-118.) -/
def isRel (k : Op) : Prop := ∃ n, k = .release n

/-- Waiters on `cv_empty__` are in `acquire()`, on `cv_full__` in `release()`; if somebody waits for a permit, every
permit there is has a coroutine on its way to it; dually for `release()`. (Concerns co_counting_semaphore.h:19-118.) -/
structure Live (M : Int) (a : AbsSt) : Prop where
  kindE : ∀ t k, a.th t = .parked .empty k → k = .acquire
  kindF : ∀ t k, a.th t = .parked .full k → isRel k
  acq : a.wq .empty ≠ [] → Promise a (· = .acquire) a.sh
  rel : a.wq .full ≠ [] → Promise a isRel (M - a.sh)
  range : 0 ≤ a.sh ∧ a.sh ≤ M

theorem kind_after {M : Int} {a : AbsSt} {t : Tid} {k : Op} (hL : Live M a)
    (hf : ∀ c j, ((obj M).body t k a.sh).fin = .park c j →
      (c = .empty ∧ j = .acquire) ∨ (c = .full ∧ isRel j)) :
    (∀ u j, (after (obj M) a t k).th u = .parked .empty j → j = .acquire) ∧
    (∀ u j, (after (obj M) a t k).th u = .parked .full j → isRel j) := by
  constructor
  all_goals
    intro u j hu
    by_cases hut : u = t
    · subst hut
      rw [after_self] at hu
      cases hb : ((obj M).body u k a.sh).fin with
      | park d i =>
        rw [hb] at hu; cases hu
        rcases hf _ _ hb with h | h
        · first | exact h.2 | exact absurd h.1 (by decide)
        · first | exact h.2 | exact absurd h.1 (by decide)
      | _ => rw [hb] at hu; cases hu
    · first
        | exact hL.kindE u j (after_parked hut hu).1
        | exact hL.kindF u j (after_parked hut hu).1

/-- A section that takes a permit. -/
theorem live_take {M : Int} {a : AbsSt} {t : Tid} {k : Op} (hw : a.Wf) (hL : Live M a) (ht : a.th t = .ready k)
    (hk : ¬ isRel k) (hb : (obj M).body t k a.sh = ⟨a.sh - 1, [.took t], [.one .full], .ret true⟩)
    (h0 : a.sh ≠ 0) : Live M (after (obj M) a t k) := by
  have hwq : (after (obj M) a t k).wq = setC a.wq .full (a.wq .full).tail :=
    wq_one (by rw [hb]) (by rw [hb]; intro d j h; cases h)
  have hsh : (after (obj M) a t k).sh = a.sh - 1 := by simp [after, hb]
  have hkind := kind_after (t := t) (k := k) hL (by rw [hb]; intro c j h; cases h)
  have hr := hL.range
  refine ⟨hkind.1, hkind.2, fun h => ?_, fun h => ?_, by omega⟩
  · rw [hsh]
    exact (hL.acq (by simpa [hwq] using h)).drop
  · rw [hwq, setC_same] at h
    cases hq : a.wq .full with
    | nil => simp [hq] at h
    | cons v rest =>
      rw [hsh]
      have := (hL.rel (by simp [hq])).wake (o := obj M) hw ht hk (u := v) (c := .full) (by simp [hq])
        (by rw [hwq, setC_same]; exact head_not_tail hw hq) hL.kindF
      exact this.mono (by omega)

theorem live_step (M : Int) (a : AbsSt) (x : AAct Op) (a' : AbsSt) (es : Trace) (hw : a.Wf) (hL : Live M a)
    (hs : a.step (obj M) x = some (a', es)) : Live M a' := by
  cases x with
  | call t k =>
    obtain ⟨ht, rfl, _⟩ := call_inv hs
    refine ⟨fun u j hu => ?_, fun u j hu => ?_, fun h => (hL.acq h).frame (by simp [ht]),
      fun h => (hL.rel h).frame (by simp [ht]), hL.range⟩
    all_goals
      by_cases hut : u = t
      · subst hut; simp at hu
      · simp only [upd_other _ _ hut] at hu
        first | exact hL.kindE u j hu | exact hL.kindF u j hu
  | leave t =>
    obtain ⟨v, ht, rfl, _⟩ := leave_inv hs
    refine ⟨fun u j hu => ?_, fun u j hu => ?_, fun h => (hL.acq h).frame (by simp [ht]),
      fun h => (hL.rel h).frame (by simp [ht]), hL.range⟩
    all_goals
      by_cases hut : u = t
      · subst hut; simp at hu
      · simp only [upd_other _ _ hut] at hu
        first | exact hL.kindE u j hu | exact hL.kindF u j hu
  | run t =>
    obtain ⟨k, ht, rfl, _⟩ := run_inv hs
    have hr := hL.range
    cases k with
    | acquire =>
      by_cases h0 : a.sh = 0
      · have hb : (obj M).body t .acquire a.sh = ⟨a.sh, [], [], .park .empty .acquire⟩ := by simp [obj, h0]
        have hsh : (after (obj M) a t .acquire).sh = a.sh := by simp [after, hb]
        have hwq := wq_park (a := a) (t := t) (k := .acquire) (c := .empty) (j := .acquire) (o := obj M)
          (by rw [hb]) (by rw [hb])
        have hkind := kind_after (t := t) (k := .acquire) hL (by rw [hb]; intro c j h; cases h; exact Or.inl ⟨rfl, rfl⟩)
        refine ⟨hkind.1, hkind.2, fun _ => .zero (by omega), fun h => ?_, by omega⟩
        rw [hsh]
        exact (hL.rel (by simpa [hwq] using h)).keep ht (by rintro ⟨n, hn⟩; cases hn)
      · exact live_take hw hL ht (by rintro ⟨n, hn⟩; cases hn) (by simp [obj, h0]) h0
    | tryAcquire =>
      by_cases h0 : a.sh = 0
      · have hb : (obj M).body t .tryAcquire a.sh = ⟨a.sh, [.failed t], [], .ret false⟩ := by simp [obj, h0]
        have hsh : (after (obj M) a t .tryAcquire).sh = a.sh := by simp [after, hb]
        have hwq := wq_nil (a := a) (t := t) (k := .tryAcquire) (o := obj M)
          (by rw [hb]) (by rw [hb]; intro d j h; cases h)
        have hkind := kind_after (t := t) (k := .tryAcquire) hL (by rw [hb]; intro c j h; cases h)
        refine ⟨hkind.1, hkind.2, fun _ => .zero (by omega), fun h => ?_, by omega⟩
        rw [hsh]
        exact (hL.rel (by simpa [hwq] using h)).keep ht (by rintro ⟨n, hn⟩; cases hn)
      · exact live_take hw hL ht (by rintro ⟨n, hn⟩; cases hn) (by simp [obj, h0]) h0
    | release n =>
      by_cases h0 : a.sh = M
      · have hb : (obj M).body t (.release n) a.sh = ⟨a.sh, [], [], .park .full (.release n)⟩ := by
          simp [obj, h0]
        have hsh : (after (obj M) a t (.release n)).sh = a.sh := by simp [after, hb]
        have hwq := wq_park (a := a) (t := t) (k := .release n) (c := .full) (j := .release n) (o := obj M)
          (by rw [hb]) (by rw [hb])
        have hkind := kind_after (t := t) (k := .release n) hL
          (by rw [hb]; intro c j h; cases h; exact Or.inr ⟨rfl, n, rfl⟩)
        refine ⟨hkind.1, hkind.2, fun h => ?_, fun _ => .zero (by omega), by omega⟩
        rw [hsh]
        exact (hL.acq (by simpa [hwq] using h)).keep ht (by simp)
      · obtain ⟨f, hb, hf⟩ : ∃ f, (obj M).body t (.release n) a.sh = ⟨a.sh + 1, [.gave t], [.one .empty], f⟩ ∧
            ∀ c j, f ≠ .park c j := by
          cases n with
          | zero => exact ⟨.ret true, by simp only [obj, if_neg h0], by intro c j h; cases h⟩
          | succ n => exact ⟨.next (.release n), by simp only [obj, if_neg h0], by intro c j h; cases h⟩
        have hsh : (after (obj M) a t (.release n)).sh = a.sh + 1 := by simp [after, hb]
        have hwq : (after (obj M) a t (.release n)).wq = setC a.wq .empty (a.wq .empty).tail :=
          wq_one (by rw [hb]) (by rw [hb]; exact hf)
        have hkind := kind_after (t := t) (k := .release n) hL
          (by rw [hb]; intro c j h; exact absurd h (hf c j))
        refine ⟨hkind.1, hkind.2, fun h => ?_, fun h => ?_, by omega⟩
        · rw [hwq, setC_same] at h
          cases hq : a.wq .empty with
          | nil => simp [hq] at h
          | cons v rest =>
            rw [hsh]
            exact (hL.acq (by simp [hq])).wake hw ht (by simp) (u := v) (c := .empty) (by simp [hq])
              (by rw [hwq, setC_same]; exact head_not_tail hw hq) hL.kindE
        · rw [hsh]
          have := (hL.rel (by simpa [hwq] using h)).drop (o := obj M) (t := t) (k := .release n)
          exact this.mono (by omega)

theorem live_reach (M d : Int) (hd : 0 ≤ d ∧ d ≤ M) (as : List (Act Op)) (s : LowSt) (es : Trace)
    (h : runs (Low.step (obj M)) (Low.init d) as = some (s, es)) : Live M s.abs :=
  abs_inv (obj M) d as s es h (Live M)
    ⟨by simp [Abs.init], by simp [Abs.init], by simp [Abs.init], by simp [Abs.init], hd⟩ (live_step M)

/-- C24. If no coroutine inside a call can make a step, then a coroutine still inside `acquire()` faces zero permits,
one still inside `release()` the maximum, and nobody is inside `try_acquire()`. -/
theorem C24_no_stranded_permit (M d : Int) (hd : 0 ≤ d ∧ d ≤ M) (as : List (Act Op)) (s : LowSt) (es : Trace)
    (h : runs (Low.step (obj M)) (Low.init d) as = some (s, es))
    (hst : ∀ t, s.step (obj M) (.run t) = none) (t : Tid) (ht : s.pc t ≠ .idle) :
    (s.pc t = .pYield .empty .acquire ∧ s.sh = 0) ∨ (∃ n, s.pc t = .pYield .full (.release n) ∧ s.sh = M) := by
  have hL := live_reach M d hd as s es h
  have hstuck := C22_stuck_only_parked (obj M) d s ⟨as, es, h⟩ hst
  have hidle : ∀ u k, s.abs.th u ≠ .ready k := by
    intro u k hu
    rcases hstuck u with ⟨_, hh⟩ | ⟨c, j, _, _, _, hh, _⟩ <;> (rw [hu] at hh; cases hh)
  have hr : 0 ≤ s.sh ∧ s.sh ≤ M := hL.range
  rcases hstuck t with ⟨hh, _⟩ | ⟨c, j, hpc, _, hmem, hth, hwq⟩
  · exact absurd hh ht
  · have hne : s.abs.wq c ≠ [] := by rw [hwq]; exact List.ne_nil_of_mem hmem
    cases c with
    | empty =>
      have h1 := hL.kindE t j hth
      have h2 : s.sh ≤ 0 := (hL.acq hne).stuck hidle
      exact Or.inl ⟨h1 ▸ hpc, by omega⟩
    | full =>
      obtain ⟨n, rfl⟩ := hL.kindF t j hth
      have h2 : M - s.sh ≤ 0 := (hL.rel hne).stuck hidle
      exact Or.inr ⟨n, hpc, by omega⟩

theorem shrinks (M : Int) : ∃ rem, Shrinks (obj M) rem := by
  refine ⟨fun k => match k with | .acquire => 1 | .release n => n + 1 | .tryAcquire => 1, ?_⟩
  intro t k sh
  cases k with
  | acquire => by_cases h0 : sh = 0 <;> simp [obj, h0]
  | tryAcquire => by_cases h0 : sh = 0 <;> simp [obj, h0]
  | release n =>
    by_cases h0 : sh = M
    · simp [obj, h0]
    · cases n <;> simp [obj, h0]

/-- C24. Without new calls every execution is finite, so such a state is always reached. -/
theorem C24_terminates (M d : Int) (as : List (Act Op)) (s : LowSt) (es : Trace)
    (h : runs (Low.step (obj M)) (Low.init d) as = some (s, es)) :
    ¬ ∃ f : Nat → LowSt, f 0 = s ∧ ∀ n, ∃ t e, (f n).step (obj M) (.run t) = some (f (n + 1), e) := by
  obtain ⟨rem, hr⟩ := shrinks M
  exact terminates (obj M) rem hr d as s es h

/-- A coroutine waits with no permits: the state of `C24_no_stranded_permit` is reached with somebody inside. -/
example : (runs (Low.step (obj 2)) (Low.init 0) ([.call 1 .acquire] ++ List.replicate 7 (.run 1))).map
    (fun p => (p.1.pc 1, p.1.sh, (p.1.step (obj 2) (.run 1)).isNone)) =
    some (.pYield .empty .acquire, 0, true) := by decide

/-- C25. A coroutine inside `try_acquire()` is never waiting for a permit: the only things it waits for are the mutex
and `cv_lock__` of `cv_full__`, both of which somebody else is about to release. -/
theorem C25_try_never_parks (M d : Int) (hd : 0 ≤ d ∧ d ≤ M) (as : List (Act Op)) (s : LowSt) (es : Trace)
    (h : runs (Low.step (obj M)) (Low.init d) as = some (s, es)) (t : Tid) (c : Cv) :
    s.abs.th t ≠ .parked c .tryAcquire := by
  have hL := live_reach M d hd as s es h
  intro hp
  cases c with
  | empty => cases hL.kindE t _ hp
  | full => obtain ⟨n, hn⟩ := hL.kindF t _ hp; cases hn

/-- C25. In a correct trace an attempt that starts, runs and ends without another call's event in between succeeds if and
only if a permit was there, takes exactly one, and returns whether it succeeded. -/
theorem C25_try_exact (M : Int) (q q' : Q) (t : Tid) (e : Lin) (b : Bool)
    (h : accepts (acc M) q [.call t .tryAcquire, .lin e, .ret t b] = some q') :
    (b = true ↔ q.permits ≠ 0) ∧ q'.permits = q.permits - (if b then 1 else 0) := by
  simp only [accepts, acc] at h
  split at h
  · simp only [Option.bind_some] at h
    cases e with
    | took u =>
      simp only at h
      split at h
      · simp only [Option.bind_some] at h
        split at h
        · rename_i h1 h2 h3
          simp only [Option.bind_some, Option.some.injEq] at h
          subst h
          by_cases hu : u = t
          · subst hu; simp at h3; subst h3; simp; omega
          · have htu : t ≠ u := fun h => hu h.symm
            simp [htu] at h3
        · cases h
      · cases h
    | failed u =>
      simp only at h
      split at h
      · simp only [Option.bind_some] at h
        split at h
        · rename_i h1 h2 h3
          simp only [Option.bind_some, Option.some.injEq] at h
          subst h
          by_cases hu : u = t
          · subst hu; simp at h3; subst h3; simp [h2.1]
          · have htu : t ≠ u := fun h => hu h.symm
            simp [htu] at h3
        · cases h
      · cases h
    | gave u =>
      exfalso
      simp only at h
      split at h
      · by_cases hu : u = t
        · subst hu; simp at h
        · have htu : t ≠ u := fun h => hu h.symm
          simp only [upd_other _ _ hu] at h
          split at h <;> simp [htu] at h
      · cases h
  · cases h

example : ∃ q', accepts (acc 2) (Q.init 1) [.call 3 .tryAcquire, .lin (.took 3), .ret 3 true] = some q' ∧
    q'.permits = 0 := ⟨_, rfl, rfl⟩

end Verif.Semaphore
