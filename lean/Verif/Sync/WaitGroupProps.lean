import Verif.Sync.WaitGroup
import Verif.Monitor.Lib

/-! # Properties of co_wait_group (C27) -/

namespace Verif.WaitGroup
open Monitor

/-- Abbreviation, no counterpart in the code. (Concerns co_wait_group.cpp:8-37.) -/
abbrev LowSt := Low Nat Unit Op Res
/-- Abbreviation, no counterpart in the code. (Concerns co_wait_group.cpp:8-37.) -/
abbrev AbsSt := Abs Nat Unit Op Res
/-- Abbreviation, no counterpart in the code. (Concerns co_wait_group.cpp:8-37.) -/
abbrev Trace := List (Ev Op Res Lin)

/-- A wait group of `n`: `passed` only after `n` `done`s; a call returns only after its event. (Concerns co_wait_group.cpp:8-37.) -/
inductive QTh
  | idle
  | finishing
  | waiting
  | finished (r : Res)
  deriving DecidableEq, Repr

/-- Specification: the state of a wait group. (Concerns co_wait_group.cpp:8-37.) -/
structure Q where
  num : Nat
  th : Tid → QTh

/-- Specification: the automaton of a wait group. (Concerns co_wait_group.cpp:8-37.) -/
def acc (n : Nat) (q : Q) : Ev Op Res Lin → Option Q
  | .call t .done => if q.th t = .idle then some { q with th := upd q.th t .finishing } else none
  | .call t .wait => if q.th t = .idle then some { q with th := upd q.th t .waiting } else none
  | .lin (.fin t) =>
    if q.th t = .finishing then
      some ⟨q.num + 1, upd q.th t (.finished (if q.num < n then .ok else .abort))⟩ else none
  | .lin (.passed t) =>
    if n ≤ q.num ∧ q.th t = .waiting then some { q with th := upd q.th t (.finished .ok) } else none
  | .ret t r => if q.th t = .finished r then some { q with th := upd q.th t .idle } else none

/-- Specification: the initial state. (Concerns co_wait_group.cpp:8-37.) -/
def Q.init : Q := ⟨0, fun _ => .idle⟩

/-- Passing before the last `done()` is not accepted. -/
example : accepts (acc 1) Q.init [.call 1 .wait, .lin (.passed 1)] = none := by simp [accepts, acc, Q.init]

/-- Proof device: the specification state of a coroutine. (Concerns co_wait_group.cpp:8-37.) -/
def qth : Th Unit Op Res → QTh
  | .idle => .idle
  | .ready .done | .parked _ .done => .finishing
  | .ready .wait | .parked _ .wait => .waiting
  | .leaving r => .finished r

theorem qth_settle (wq : Unit → List Tid) (u : Tid) (x : Th Unit Op Res) : qth (settle wq u x) = qth x := by
  cases x with
  | parked c k => simp only [settle]; split <;> cases k <;> rfl
  | _ => rfl

/-- Proof device: the simulation relation. (Concerns co_wait_group.cpp:8-37.) -/
structure R (a : AbsSt) (q : Q) : Prop where
  num : q.num = a.sh
  th : ∀ t, q.th t = qth (a.th t)

theorem R_after {n : Nat} {a : AbsSt} {q : Q} {t : Tid} {k : Op} (hR : R a q) (x : QTh)
    (hx : x = qth ((obj n).body t k a.sh).fin.th) : ∀ u, upd q.th t x u = qth ((after (obj n) a t k).th u) := by
  intro u
  by_cases hu : u = t
  · subst hu; simp [after_self, hx]
  · simp only [upd_other _ _ hu, after_th hu, qth_settle, hR.th]

theorem sim (n : Nat) (a : AbsSt) (x : AAct Op) (a' : AbsSt) (es : Trace) (q : Q) (hR : R a q)
    (hs : a.step (obj n) x = some (a', es)) : ∃ q', accepts (acc n) q es = some q' ∧ R a' q' := by
  have h1 := hR.num
  have h2 := hR.th
  cases x with
  | call t k =>
    obtain ⟨ht, rfl, rfl⟩ := call_inv hs
    have hq : q.th t = .idle := by rw [h2, ht]; rfl
    cases k
    all_goals
      simp only [accepts, acc, hq, if_true, Option.bind_some]
      refine ⟨_, rfl, h1, fun u => ?_⟩
      by_cases hu : u = t
      · subst hu; simp [qth]
      · simp [hu, h2]
  | leave t =>
    obtain ⟨v, ht, rfl, rfl⟩ := leave_inv hs
    have hq : q.th t = .finished v := by rw [h2, ht]; rfl
    simp only [accepts, acc, hq, if_true, Option.bind_some]
    refine ⟨_, rfl, h1, fun u => ?_⟩
    by_cases hu : u = t
    · subst hu; simp [qth]
    · simp [hu, h2]
  | run t =>
    obtain ⟨k, ht, rfl, rfl⟩ := run_inv hs
    have hq : q.th t = qth (.ready k) := by rw [h2, ht]
    cases k with
    | done =>
      have hb : (obj n).body t .done a.sh = ⟨a.sh + 1, [.fin t], if a.sh + 1 = n then [.all ()] else [],
        .ret (if a.sh + 1 ≤ n then .ok else .abort)⟩ := rfl
      have hq' : q.th t = .finishing := hq
      simp only [hb, List.map_cons, List.map_nil, accepts, acc, if_pos hq', Option.bind_some]
      refine ⟨_, rfl, by simp [after, hb, h1], R_after hR _ ?_⟩
      rw [hb, h1]; rfl
    | wait =>
      by_cases hc : a.sh < n
      · have hb : (obj n).body t .wait a.sh = ⟨a.sh, [], [], .park () .wait⟩ := by simp [obj, hc]
        simp only [hb, List.map_nil, accepts]
        refine ⟨_, rfl, by simpa [after, hb] using h1, fun u => ?_⟩
        have := R_after (n := n) hR (t := t) (k := .wait) (q.th t) (by rw [hb, hq]; rfl) u
        rw [← this]
        by_cases hu : u = t
        · subst hu; simp
        · simp [hu]
      · have hb : (obj n).body t .wait a.sh = ⟨a.sh, [.passed t], [], .ret .ok⟩ := by simp [obj, hc]
        have hcond : n ≤ q.num ∧ q.th t = .waiting := ⟨by omega, by rw [hq]; rfl⟩
        simp only [hb, List.map_cons, List.map_nil, accepts, acc, if_pos hcond, Option.bind_some]
        exact ⟨_, rfl, by simpa [after, hb] using h1, R_after hR _ (by rw [hb]; rfl)⟩

theorem sim_reach (n : Nat) (as : List (Act Op)) (s : LowSt) (es : Trace)
    (h : runs (Low.step (obj n)) (Low.init 0) as = some (s, es)) :
    ∃ q, accepts (acc n) Q.init es = some q ∧ R s.abs q :=
  abs_sim (obj n) (acc n) 0 Q.init R ⟨rfl, fun _ => rfl⟩ (fun a x a' es q _ hR hs => sim n a x a' es q hR hs)
    as s es h

theorem dones_append (es fs : Trace) : dones (es ++ fs) = dones es + dones fs := List.countP_append

theorem dones_spec (n : Nat) (es : Trace) (q q' : Q) (h : accepts (acc n) q es = some q') :
    q'.num = q.num + dones es := by
  induction es generalizing q with
  | nil => simp only [accepts, Option.some.injEq] at h; subst h; simp [dones]
  | cons e es ih =>
    simp only [accepts] at h
    cases he : acc n q e with
    | none => simp [he] at h
    | some q1 =>
      simp only [he, Option.bind_some] at h
      have h1 := ih q1 h
      have h2 : q1.num = q.num + dones [e] := by
        cases e with
        | call t k => cases k <;> simp only [acc] at he <;> split at he <;> cases he <;> simp [dones]
        | ret t b => simp only [acc] at he; split at he <;> cases he; simp [dones]
        | lin e => cases e <;> simp only [acc] at he <;> split at he <;> cases he <;> simp [dones]
      have h3 := dones_append [e] es
      simp only [List.cons_append, List.nil_append] at h3
      omega

/-- C27. `wait()` lets nobody through before `done()` was called `n` times, and the trace is one of a correct wait
group (in particular a `wait()` returns only after it was let through). -/
theorem C27_waits_for_all (n : Nat) (as : List (Act Op)) (s : LowSt) (es : Trace)
    (h : runs (Low.step (obj n)) (Low.init 0) as = some (s, es)) :
    (∃ q, accepts (acc n) Q.init es = some q) ∧
    ∀ pre post t, es = pre ++ .lin (.passed t) :: post → n ≤ dones pre := by
  obtain ⟨q, hq, _⟩ := sim_reach n as s es h
  refine ⟨⟨q, hq⟩, fun pre post t hes => ?_⟩
  rw [hes, accepts_append] at hq
  cases hp : accepts (acc n) Q.init pre with
  | none => simp [hp] at hq
  | some q1 =>
    have h1 := dones_spec n pre _ _ hp
    simp only [hp, Option.bind_some, accepts, acc] at hq
    split at hq
    · rename_i hc; simp only [Q.init] at h1; omega
    · cases hq

theorem finished_stays (n : Nat) (t : Tid) (x : Res) (mid : Trace) (hm : ∀ r, Ev.ret t r ∉ mid) (q q' : Q)
    (hq : q.th t = .finished x) (h : accepts (acc n) q mid = some q') : q'.th t = .finished x := by
  induction mid generalizing q with
  | nil => simp only [accepts, Option.some.injEq] at h; subst h; exact hq
  | cons e es ih =>
    simp only [accepts] at h
    cases he : acc n q e with
    | none => simp [he] at h
    | some q1 =>
      simp only [he, Option.bind_some] at h
      refine ih (fun r hr => hm r (List.mem_cons_of_mem _ hr)) q1 ?_ h
      cases e with
      | call u k => cases k <;> simp only [acc] at he <;> split at he <;> cases he <;> simp only [upd] <;> grind
      | ret u b =>
        have hut : u ≠ t := by rintro rfl; exact hm b (List.mem_cons_self ..)
        simp only [acc] at he; split at he <;> cases he; simp only [upd]; grind
      | lin e => cases e <;> simp only [acc] at he <;> split at he <;> cases he <;> simp only [upd] <;> grind

/-- C27. `done()` fails its assertion exactly when it is called more than `n` times. -/
theorem C27_abort_iff_too_many (n : Nat) (as : List (Act Op)) (s : LowSt) (es pre mid post : Trace) (t : Tid) (r : Res)
    (h : runs (Low.step (obj n)) (Low.init 0) as = some (s, es))
    (hes : es = pre ++ .lin (.fin t) :: (mid ++ .ret t r :: post)) (hm : ∀ r, Ev.ret t r ∉ mid) :
    r = .abort ↔ n ≤ dones pre := by
  obtain ⟨q, hq, _⟩ := sim_reach n as s es h
  rw [hes, accepts_append] at hq
  cases hp : accepts (acc n) Q.init pre with
  | none => simp [hp] at hq
  | some q1 =>
    have h1 := dones_spec n pre _ _ hp
    simp only [Q.init, Nat.zero_add] at h1
    simp only [hp, Option.bind_some, accepts] at hq
    cases ha : acc n q1 (.lin (.fin t)) with
    | none => simp [ha] at hq
    | some q2 =>
      simp only [ha, Option.bind_some, accepts_append] at hq
      cases hmid : accepts (acc n) q2 mid with
      | none => simp [hmid] at hq
      | some q3 =>
        have h2 : q2.th t = .finished (if q1.num < n then .ok else .abort) := by
          simp only [acc] at ha
          split at ha
          · cases ha; simp
          · cases ha
        have h3 := finished_stays n t _ mid hm q2 q3 h2 hmid
        simp only [hmid, Option.bind_some, accepts, acc, h3, QTh.finished.injEq] at hq
        have h4 : (if q1.num < n then Res.ok else .abort) = r := by
          apply Decidable.byContradiction
          intro hne
          simp [hne] at hq
        rw [← h4, h1]
        by_cases hc : dones pre < n
        · simp only [if_pos hc]; constructor
          · intro h; cases h
          · intro h; omega
        · simp only [if_neg hc, true_iff]; omega

/-- Proof device: the liveness invariant. (Concerns co_wait_group.cpp:8-37.) -/
structure Live (n : Nat) (a : AbsSt) : Prop where
  kind : ∀ t k, a.th t = .parked () k → k = .wait
  shut : a.wq () ≠ [] → a.sh < n

theorem live_step (n : Nat) (a : AbsSt) (x : AAct Op) (a' : AbsSt) (es : Trace) (hL : Live n a)
    (hs : a.step (obj n) x = some (a', es)) : Live n a' := by
  cases x with
  | call t k =>
    obtain ⟨ht, rfl, _⟩ := call_inv hs
    refine ⟨fun u j hu => ?_, hL.shut⟩
    by_cases hut : u = t
    · subst hut; simp at hu
    · simp only [upd_other _ _ hut] at hu; exact hL.kind u j hu
  | leave t =>
    obtain ⟨v, ht, rfl, _⟩ := leave_inv hs
    refine ⟨fun u j hu => ?_, hL.shut⟩
    by_cases hut : u = t
    · subst hut; simp at hu
    · simp only [upd_other _ _ hut] at hu; exact hL.kind u j hu
  | run t =>
    obtain ⟨k, ht, rfl, _⟩ := run_inv hs
    cases k with
    | done =>
      refine ⟨fun u j hu => ?_, fun h => ?_⟩
      · by_cases hut : u = t
        · subst hut; rw [after_self] at hu; simp [obj, Fin.th] at hu
        · exact hL.kind u j (after_parked hut hu).1
      · simp only [after, obj, enqueue] at h ⊢
        by_cases hc : a.sh + 1 = n
        · simp [hc, notify] at h
        · simp only [if_neg hc, List.foldl_nil] at h
          have := hL.shut h
          omega
    | wait =>
      by_cases hc : a.sh < n
      · have hb : (obj n).body t .wait a.sh = ⟨a.sh, [], [], .park () .wait⟩ := by simp [obj, hc]
        refine ⟨fun u j hu => ?_, fun _ => by simpa [after, hb] using hc⟩
        by_cases hut : u = t
        · subst hut; rw [after_self, hb] at hu; cases hu; rfl
        · exact hL.kind u j (after_parked hut hu).1
      · have hb : (obj n).body t .wait a.sh = ⟨a.sh, [.passed t], [], .ret .ok⟩ := by simp [obj, hc]
        refine ⟨fun u j hu => ?_, fun h => ?_⟩
        · by_cases hut : u = t
          · subst hut; rw [after_self, hb] at hu; cases hu
          · exact hL.kind u j (after_parked hut hu).1
        · simp only [after, hb, enqueue, List.foldl_nil] at h ⊢
          exact hL.shut h

/-- C27. The last `done()` releases all waiters: if no coroutine inside a call can make a step and somebody is still
inside, they are in `wait()` and `done()` was called fewer than `n` times. -/
theorem C27_releases_everybody (n : Nat) (as : List (Act Op)) (s : LowSt) (es : Trace)
    (h : runs (Low.step (obj n)) (Low.init 0) as = some (s, es)) (hst : ∀ t, s.step (obj n) (.run t) = none) (t : Tid)
    (ht : s.pc t ≠ .idle) : s.pc t = .pYield () .wait ∧ dones es < n := by
  have hL := abs_inv (obj n) 0 as s es h (Live n) ⟨by simp [Abs.init], by simp [Abs.init]⟩
    (fun a x a' es _ hh hs => live_step n a x a' es hh hs)
  obtain ⟨q, hq, hR⟩ := sim_reach n as s es h
  have h1 := dones_spec n es _ _ hq
  have h2 : q.num = s.abs.sh := hR.num
  simp only [Q.init, Nat.zero_add] at h1
  rcases C22_stuck_only_parked (obj n) 0 s ⟨as, es, h⟩ hst t with ⟨hh, _⟩ | ⟨c, j, hpc, _, hmem, hth, hwq⟩
  · exact absurd hh ht
  · have hk := hL.kind t j hth
    subst hk
    have := hL.shut (by rw [hwq]; exact List.ne_nil_of_mem hmem)
    exact ⟨hpc, by omega⟩

theorem shrinks (n : Nat) : ∃ rem, Shrinks (obj n) rem := by
  refine ⟨fun _ => 1, ?_⟩
  intro t k sh
  cases k with
  | done => simp [obj]
  | wait => by_cases hc : sh < n <;> simp [obj, hc]

/-- C27. Without new calls every execution is finite. -/
theorem C27_terminates (n : Nat) (as : List (Act Op)) (s : LowSt) (es : Trace)
    (h : runs (Low.step (obj n)) (Low.init 0) as = some (s, es)) :
    ¬ ∃ f : Nat → LowSt, f 0 = s ∧ ∀ m, ∃ t e, (f m).step (obj n) (.run t) = some (f (m + 1), e) := by
  obtain ⟨rem, hr⟩ := shrinks n
  exact terminates (obj n) rem hr 0 as s es h

/-- A wait group of 2 with two waiters, and a third `done()` that fails its assertion. (Concerns co_wait_group.cpp:8-37.) -/
def demo : List (Act Op) :=
  [.call 1 .wait] ++ List.replicate 7 (.run 1) ++ [.call 2 .wait] ++ List.replicate 7 (.run 2) ++
  [.call 3 .done] ++ List.replicate 3 (.run 3) ++ [.call 3 .done] ++ List.replicate 9 (.run 3) ++
  List.replicate 4 (.run 2) ++ List.replicate 4 (.run 1) ++ [.call 3 .done] ++ List.replicate 3 (.run 3)

example : (runs (Low.step (obj 2)) (Low.init 0) demo).map (fun p => (p.1.sh, p.2)) =
    some (3, [.call 1 .wait, .call 2 .wait, .call 3 .done, .lin (.fin 3), .ret 3 .ok, .call 3 .done, .lin (.fin 3),
      .ret 3 .ok, .lin (.passed 2), .ret 2 .ok, .lin (.passed 1), .ret 1 .ok, .call 3 .done, .lin (.fin 3),
      .ret 3 .abort]) := by decide

end Verif.WaitGroup
