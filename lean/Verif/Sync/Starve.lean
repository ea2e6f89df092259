import Verif.Monitor.Serial
import Verif.Sync.MutexProps
import Verif.Sync.RecMutexProps
import Verif.Sync.SharedMutexProps
import Verif.Sync.Semaphore
import Verif.Chan.Chan

/-! # C115: who waits is overtaken only so often

The mutexes serve their queue in order (C04, C10), so the number of others that come first is known when a coroutine gets into the queue. The
semaphore and the channels wait in a condition variable, and a coroutine that was notified has to lock the mutex again; who calls in
between takes what the notification was about. A shared mutex that readers hold lets further readers in past a writer. Here the machines
are those of the properties named, unchanged. -/

namespace Verif.Starve

/-! ## The mutexes -/

/-- Proof device: what comes before `t` in a list that goes on as `m ++ [t]`. -/
theorem prefix_short {l m : List Tid} {t : Tid} (h : l <+: m ++ [t] ∨ m ++ [t] <+: l) (hn : t ∉ l) : l.length ≤ m.length := by
  rcases h with h | h
  · have h1 := h.length_le
    simp only [List.length_append, List.length_singleton] at h1
    rcases Nat.lt_or_ge m.length l.length with hl | hl
    · exfalso
      have : l = m ++ [t] := h.eq_of_length (by simp; omega)
      exact hn (by simp [this])
    · exact hl
  · exact absurd (h.subset (by simp)) hn

/-- **C115 for `co_mutex`.** While `t` is queued with the coroutines `ahead` before it and has not got the mutex, the mutex is acquired at most
`ahead.length + 1` times, by anybody: once by a coroutine that was already chosen and once by each of `ahead`. -/
theorem C115_mutex (s : Mutex.St) (h : Reach (Mutex.step false) Mutex.St.init s) (t : Tid) (ahead behind : List Tid)
    (hq : s.queue = ahead ++ t :: behind) (as : List Mutex.Act) (s' : Mutex.St) (es : List LockSpec.Ev)
    (hr : runs (Mutex.step false) s as = some (s', es)) (hn : .acq t ∉ es) :
    (es.filter fun e => match e with | .acq _ => true | _ => false).length ≤ ahead.length + 1 := by
  have h1 := Mutex.C04_mutex_fifo s h t ahead behind hq as s' es hr
  have h2 : t ∉ Mutex.acqs es := by
    simp only [Mutex.acqs, List.mem_filterMap, not_exists, not_and]
    intro e he hx
    cases e with
    | acq u => simp only [Option.some.injEq] at hx; subst hx; exact hn he
    | _ => simp at hx
  have h3 : (Mutex.granted s).length ≤ 1 := by
    unfold Mutex.granted; split <;> (try split) <;> simp
  have h4 := prefix_short h1 h2
  have h5 : (es.filter fun e => match e with | .acq _ => true | _ => false).length = (Mutex.acqs es).length := by
    clear hr hn h1 h2 h4
    induction es with
    | nil => rfl
    | cons e es ih => cases e <;> simp_all [Mutex.acqs]
  rw [h5]
  simp only [List.length_append] at h4
  omega

/-- Coroutine 1 has the mutex, 2 and 3 are queued; 1 unlocks and 2 gets it, 3 not yet. -/
example : ∃ s es s' es', runs (Mutex.step false) Mutex.St.init Mutex.demo = some (s, es) ∧ s.queue = [2] ++ 3 :: [] ∧
    runs (Mutex.step false) s (Mutex.demo2.drop 19) = some (s', es') ∧ es' = [.unlockCall 1, .unlockRet 1 true, .acq 2] :=
  ⟨_, _, _, _, rfl, rfl, rfl, rfl⟩

/-- **C115 for `co_recursive_mutex`.** The same for the acquisitions that are not nested (`RecMutex.firsts`). -/
theorem C115_recursive_mutex (s : RecMutex.St) (h : Reach RecMutex.step RecMutex.St.init s) (t : Tid) (ahead behind : List Tid)
    (hq : s.queue = ahead ++ t :: behind) (as : List RecMutex.Act) (s' : RecMutex.St) (es : List LockSpec.Ev)
    (hr : runs RecMutex.step s as = some (s', es)) (hn : .acq t ∉ es) : (RecMutex.firsts s.depth es).length ≤ ahead.length + 1 := by
  have h1 := RecMutex.C10_recursive_mutex_fifo s h t ahead behind hq as s' es hr
  have h2 : ∀ d, t ∉ RecMutex.firsts d es := by
    clear hr h1
    induction es with
    | nil => intro d; simp [RecMutex.firsts]
    | cons e es ih =>
      intro d
      simp only [List.mem_cons, not_or] at hn
      simp only [RecMutex.firsts, List.mem_append, not_or]
      refine ⟨?_, ih hn.2 _⟩
      cases e with
      | acq u => simp only; split <;> simp; rintro rfl; exact hn.1 rfl
      | _ => simp
  have h3 : (RecMutex.granted s).length ≤ 1 := by
    unfold RecMutex.granted; split <;> (try split) <;> simp
  have h4 := prefix_short h1 (h2 _)
  simp only [List.length_append] at h4
  omega

/-- The same with a recursive mutex. -/
example : ∃ s es s' es', runs RecMutex.step RecMutex.St.init RecMutex.demo = some (s, es) ∧ s.queue = [2] ++ 3 :: [] ∧
    runs RecMutex.step s (RecMutex.demo2.drop RecMutex.demo.length) = some (s', es') ∧ RecMutex.firsts s.depth es' = [2] :=
  ⟨_, _, _, _, rfl, rfl, rfl, rfl⟩

/-! ## The semaphore -/

open Monitor in
/-- Schedule. Coroutine 2 takes the only permit, coroutine 1 waits; then `k` times: 2 releases, which notifies 1, and acquires again
before 1 has the mutex; 1 looks and waits again. (Concerns co_mutex.cpp:18-108, co_counting_semaphore.h:45-105.) -/
def semAct : Nat → List (FAct Semaphore.Op)
  | 0 => ([.call 2 .acquire] ++ solo 2 13) ++ ([.call 1 .acquire] ++ solo 1 14)
  | k + 1 => semAct k ++ ((([.call 2 (.release 0)] ++ solo 2 14) ++ ([.call 2 .acquire] ++ solo 2 13)) ++ (solo 1 1 ++ solo 1 14))

/-- The trace of `semAct`. (Concerns co_mutex.cpp:18-108, co_counting_semaphore.h:45-105.) -/
def semTrace : Nat → List (Monitor.Ev Semaphore.Op Bool Semaphore.Lin)
  | 0 => [.call 2 .acquire, .lin (.took 2), .ret 2 true, .call 1 .acquire]
  | k + 1 => semTrace k ++ [.call 2 (.release 0), .lin (.gave 2), .ret 2 true, .call 2 .acquire, .lin (.took 2), .ret 2 true]

open Monitor in
/-- Proof device: coroutine 1 waits for a permit, 2 is outside. (Concerns co_mutex.cpp:18-108, co_counting_semaphore.h:45-105.) -/
def SemP (l : Low Int Semaphore.Cv Semaphore.Op Bool) : Prop :=
  l.sh = 0 ∧ l.wl .empty = [1] ∧ l.wl .full = [] ∧ (∀ c, l.cv c = none) ∧ l.pc 1 = .pYield .empty .acquire ∧ l.pc 2 = .idle

open Monitor in
theorem sem_runs (M : Int) (hM : 1 ≤ M) (k : Nat) : ∃ l, SemP l ∧
    runs (Full.step (Semaphore.obj M)) (Full.init 1) (semAct k) = some (⟨l, Mutex.St.init, false⟩, semTrace k) := by
  induction k with
  | zero =>
    obtain ⟨l1, h1, a1, a2, a3, a4, a5⟩ := call_one_none (Semaphore.obj M) (Low.init 1) false 2 .acquire 0 [.took 2] true .full
      rfl (by simp [Semaphore.obj, Low.init]) rfl rfl
    obtain ⟨l2, h2, b1, b2, b3, b4, b5⟩ := call_park (Semaphore.obj M) l1 false 1 .acquire .acquire 0 [] .empty
      (by simp [a5, Low.init]) (by simp [Semaphore.obj, a1]) (by simp [a3, Low.init])
    exact ⟨l2, by simp [SemP, b1, b2, b3, b5, a2, a3, a5, Low.init], runs_append h1 h2⟩
  | succ k ih =>
    obtain ⟨l, ⟨p1, p2, p3, p4, p5, p6⟩, h⟩ := ih
    obtain ⟨l1, h1, a1, a2, a3, a4, a5⟩ := call_one_some (Semaphore.obj M) l false 2 1 [] (.release 0) 1 [.gave 2] true .empty
      p6 (by simp [Semaphore.obj, p1]; omega) (p4 _) p2
    obtain ⟨l2, h2, b1, b2, b3, b4, b5⟩ := call_one_none (Semaphore.obj M) l1 false 2 .acquire 0 [.took 2] true .full
      (by simp [a5]) (by simp [Semaphore.obj, a1]) (by simp [a3, p4]) (by simp [a2, p3])
    obtain ⟨l3, h3, c1, c2, c3, c4, c5⟩ := again_park (Semaphore.obj M) l2 false 1 .acquire .acquire 0 [] .empty
      (by simp [b5, a5, p5]) (by simp [b4, a4]) (by simp [Semaphore.obj, b1]) (by simp [b3, a3, p4])
    refine ⟨l3, ?_, runs_append h (runs_append (runs_append h1 h2) h3)⟩
    simp [SemP, c1, c2, c3, c5, b2, b3, b5, a2, a3, a5, p3, p4]

/-- **C115, negation for the semaphore.** However large `k`: coroutine 1 waits in `acquire` while another one gives the permit back and
takes it again `k` times, each release having notified coroutine 1; coroutine 1 is still waiting. -/
theorem C115_semaphore_starved (M : Int) (hM : 1 ≤ M) (k : Nat) : ∃ as f es,
    runs (Monitor.Full.step (Semaphore.obj M)) (Monitor.Full.init 1) as = some (f, [.call 2 .acquire, .lin (.took 2), .ret 2 true, .call 1 .acquire] ++ es) ∧
    es.count (.lin (.took 2)) = k ∧ es.count (.lin (.gave 2)) = k ∧ (∀ v, .ret 1 v ∉ es) ∧ f.low.pc 1 = .pYield .empty .acquire := by
  obtain ⟨l, hp, h⟩ := sem_runs M hM k
  have key : ∃ es, semTrace k = [.call 2 .acquire, .lin (.took 2), .ret 2 true, .call 1 .acquire] ++ es ∧
      es.count (.lin (.took 2)) = k ∧ es.count (.lin (.gave 2)) = k ∧ ∀ v, .ret 1 v ∉ es := by
    clear h
    induction k with
    | zero => exact ⟨[], by simp [semTrace]⟩
    | succ k ih =>
      obtain ⟨es, h1, h2, h3, h4⟩ := ih
      refine ⟨_, by rw [semTrace, h1, List.append_assoc], ?_, ?_, ?_⟩
      · simp [List.count_append, List.count_cons, h2]
      · simp [List.count_append, List.count_cons, h3]
      · intro v; simp [h4]
  obtain ⟨es, h1, h2⟩ := key
  exact ⟨_, _, es, by rw [h, h1], h2.1, h2.2.1, h2.2.2, hp.2.2.2.2.1⟩

/-- Three rounds. -/
example : ((runs (Monitor.Full.step (Semaphore.obj 1)) (Monitor.Full.init 1) (semAct 3)).map fun r => (r.2.length, r.1.low.asleep 1, r.1.low.sh)) =
    some (22, true, 0) := by decide +kernel

/-! ## The channels -/

open Monitor in
/-- Schedule. Coroutine 1 waits in `pop`; then `k` times: 2 pushes, which notifies 1, 3 pops, 1 looks and waits again. (Concerns co_mutex.cpp:18-108, co_counting_semaphore.h:45-105.) -/
def popAct : Nat → List (FAct (Chan.Op Nat))
  | 0 => [.call 1 .pop] ++ solo 1 14
  | k + 1 => popAct k ++ ((([.call 2 (.push k)] ++ solo 2 14) ++ ([.call 3 .pop] ++ solo 3 13)) ++ (solo 1 1 ++ solo 1 14))

/-- The trace of `popAct`. (Concerns co_mutex.cpp:18-108, co_counting_semaphore.h:45-105.) -/
def popTrace : Nat → List (Monitor.Ev (Chan.Op Nat) (Chan.Res Nat) (Chan.Lin Nat))
  | 0 => [.call 1 .pop]
  | k + 1 => popTrace k ++ [.call 2 (.push k), .lin (.accepted 2 k), .ret 2 (.pushed true), .call 3 .pop, .lin (.got 3 k), .ret 3 (.popped (some k))]

open Monitor in
/-- Proof device: the channel is empty, coroutine 1 waits in `pop`, 2 and 3 are outside. (Concerns co_mutex.cpp:18-108, co_counting_semaphore.h:45-105.) -/
def PopP (l : Low (Chan.Ch Nat) Chan.Cv (Chan.Op Nat) (Chan.Res Nat)) : Prop :=
  l.sh = ⟨[], false⟩ ∧ l.wl .empty = [1] ∧ l.wl .full = [] ∧ (∀ c, l.cv c = none) ∧ l.pc 1 = .pYield .empty .popW ∧ l.pc 2 = .idle ∧ l.pc 3 = .idle

open Monitor in
theorem pop_runs (kd : Chan.Kind) (hk : kd = .unlimited ∨ ∃ n, kd = .fixed (n + 1)) (k : Nat) : ∃ l, PopP l ∧
    runs (Full.step (Chan.obj kd)) (Full.init Chan.Ch.init) (popAct k) = some (⟨l, Mutex.St.init, false⟩, popTrace k) := by
  have hpush : ∀ v : Nat, (Chan.obj kd).body 2 (.push v) ⟨[], false⟩ = ⟨⟨[v], false⟩, [.accepted 2 v], [.one .empty], .ret (.pushed true)⟩ := by
    intro v; rcases hk with rfl | ⟨n, rfl⟩ <;> simp [Chan.obj, Chan.enter]
  have hempty : ∀ t (q : Chan.Op Nat), q = .pop ∨ q = .popW → (Chan.obj kd).body t q ⟨[], false⟩ = ⟨⟨[], false⟩, [], [], .park .empty .popW⟩ := by
    rintro t q (rfl | rfl) <;> simp [Chan.obj, Chan.popBody]
  induction k with
  | zero =>
    obtain ⟨l1, h1, a1, a2, a3, a4, a5⟩ := call_park (Chan.obj kd) (Low.init Chan.Ch.init) false 1 .pop .popW ⟨[], false⟩ [] .empty
      rfl (hempty 1 .pop (.inl rfl)) rfl
    exact ⟨l1, by simp [PopP, a1, a2, a3, a5, Low.init], h1⟩
  | succ k ih =>
    obtain ⟨l, ⟨p1, p2, p3, p4, p5, p6, p7⟩, h⟩ := ih
    obtain ⟨l1, h1, a1, a2, a3, a4, a5⟩ := call_one_some (Chan.obj kd) l false 2 1 [] (.push k) ⟨[k], false⟩ [.accepted 2 k] (.pushed true) .empty
      p6 (by rw [p1]; exact hpush k) (p4 _) p2
    obtain ⟨l2, h2, b1, b2, b3, b4, b5⟩ := call_one_none (Chan.obj kd) l1 false 3 .pop ⟨[], false⟩ [.got 3 k] (.popped (some k)) .full
      (by simp [a5, p7]) (by simp [Chan.obj, Chan.popBody, a1]) (by simp [a3, p4]) (by simp [a2, p3])
    obtain ⟨l3, h3, c1, c2, c3, c4, c5⟩ := again_park (Chan.obj kd) l2 false 1 .popW .popW ⟨[], false⟩ [] .empty
      (by simp [b5, a5, p5]) (by simp [b4, a4]) (by rw [b1]; exact hempty 1 .popW (.inr rfl)) (by simp [b3, a3, p4])
    refine ⟨l3, ?_, runs_append h (runs_append (runs_append h1 h2) h3)⟩
    simp [PopP, c1, c2, c3, c5, b2, b3, b5, a2, a3, a5, p3, p4, p7]

/-- **C115, negation for the receivers of a channel** (unlimited, or with any capacity but 0). However large `k`: coroutine 1 waits in
`pop` on an empty channel while `k` values are pushed, and another coroutine that called later gets them all; coroutine 1 is still
waiting. -/
theorem C115_receiver_starved (kd : Chan.Kind) (hk : kd = .unlimited ∨ ∃ n, kd = .fixed (n + 1)) (k : Nat) : ∃ as f es,
    runs (Monitor.Full.step (Chan.obj kd)) (Monitor.Full.init Chan.Ch.init) as = some (f, [.call 1 .pop] ++ es) ∧
    (∀ v, v < k ↔ .lin (.got 3 v) ∈ es) ∧ (∀ v, .ret 1 v ∉ es) ∧ f.low.pc 1 = .pYield .empty .popW := by
  obtain ⟨l, hp, h⟩ := pop_runs kd hk k
  have key : ∃ es, popTrace k = [.call 1 .pop] ++ es ∧ (∀ v, v < k ↔ .lin (.got 3 v) ∈ es) ∧ ∀ v, .ret 1 v ∉ es := by
    clear h
    induction k with
    | zero => exact ⟨[], by simp [popTrace]⟩
    | succ k ih =>
      obtain ⟨es, h1, h2, h3⟩ := ih
      refine ⟨_, by rw [popTrace, h1, List.append_assoc], ?_, ?_⟩
      · intro v; simp [← h2]; omega
      · intro v; simp [h3]
  obtain ⟨es, h1, h2⟩ := key
  exact ⟨_, _, es, by rw [h, h1], h2.1, h2.2, hp.2.2.2.2.1⟩

/-- Two values pass coroutine 1 by. -/
example : ((runs (Monitor.Full.step (Chan.obj .unlimited)) (Monitor.Full.init Chan.Ch.init) (popAct 2)).map Prod.snd) =
    some [.call 1 .pop, .call 2 (.push 0), .lin (.accepted 2 0), .ret 2 (.pushed true), .call 3 .pop, .lin (.got 3 0), .ret 3 (.popped (some 0)),
      .call 2 (.push 1), .lin (.accepted 2 1), .ret 2 (.pushed true), .call 3 .pop, .lin (.got 3 1), .ret 3 (.popped (some 1))] := by decide +kernel

open Monitor in
/-- Schedule. Coroutine 2 pushes until the channel with room for `n` values is full, 1 waits in `push`. (Concerns co_mutex.cpp:18-108, co_counting_semaphore.h:45-105.) -/
def fillAct : Nat → List (FAct (Chan.Op Nat))
  | 0 => []
  | n + 1 => fillAct n ++ ([.call 2 (.push 0)] ++ solo 2 13)

open Monitor in
/-- Schedule. Coroutine 3 pops, which notifies 1, 2 pushes, 1 looks and waits again; `k` times. (Concerns co_mutex.cpp:18-108, co_counting_semaphore.h:45-105.) -/
def pushAct : Nat → List (FAct (Chan.Op Nat))
  | 0 => []
  | k + 1 => pushAct k ++ ((([.call 3 .pop] ++ solo 3 14) ++ ([.call 2 (.push 0)] ++ solo 2 13)) ++ (solo 1 1 ++ solo 1 14))

/-- The trace of `pushAct`. (Concerns co_mutex.cpp:18-108, co_counting_semaphore.h:45-105.) -/
def pushTrace : Nat → List (Monitor.Ev (Chan.Op Nat) (Chan.Res Nat) (Chan.Lin Nat))
  | 0 => []
  | k + 1 => pushTrace k ++ [.call 3 .pop, .lin (.got 3 0), .ret 3 (.popped (some 0)), .call 2 (.push 0), .lin (.accepted 2 0), .ret 2 (.pushed true)]

open Monitor in
/-- Proof device: `n` values are in the channel, nobody waits. (Concerns co_mutex.cpp:18-108, co_counting_semaphore.h:45-105.) -/
def FillP (n : Nat) (l : Low (Chan.Ch Nat) Chan.Cv (Chan.Op Nat) (Chan.Res Nat)) : Prop :=
  l.sh = ⟨List.replicate n 0, false⟩ ∧ l.wl .full = [] ∧ l.wl .empty = [] ∧ (∀ c, l.cv c = none) ∧ ∀ t, l.pc t = .idle

open Monitor in
theorem fill_runs (m n : Nat) (h : n ≤ m) : ∃ l es, FillP n l ∧
    runs (Full.step (Chan.obj (.fixed m))) (Full.init Chan.Ch.init) (fillAct n) = some (⟨l, Mutex.St.init, false⟩, es) := by
  induction n with
  | zero => exact ⟨_, [], by simp [FillP, Low.init, Chan.Ch.init], rfl⟩
  | succ n ih =>
    obtain ⟨l, es, ⟨p1, p2, p3, p4, p5⟩, hr⟩ := ih (by omega)
    obtain ⟨l1, h1, a1, a2, a3, a4, a5⟩ := call_one_none (Chan.obj (.fixed m)) l false 2 (.push 0) ⟨List.replicate (n + 1) 0, false⟩ [.accepted 2 0] (.pushed true) .empty
      (p5 2) (by simp [Chan.obj, Chan.enter, p1, List.replicate_succ', show n ≠ m by omega]) (p4 _) p3
    refine ⟨l1, _, ⟨a1, by simp [a2, p2], by simp [a2, p3], by simp [a3, p4], ?_⟩, runs_append hr h1⟩
    intro t; simp [a5, upd_apply, p5]

open Monitor in
/-- Proof device: the channel is full, coroutine 1 waits in `push`, 2 and 3 are outside. (Concerns co_mutex.cpp:18-108, co_counting_semaphore.h:45-105.) -/
def PushP (n : Nat) (l : Low (Chan.Ch Nat) Chan.Cv (Chan.Op Nat) (Chan.Res Nat)) : Prop :=
  l.sh = ⟨List.replicate (n + 1) 0, false⟩ ∧ l.wl .full = [1] ∧ l.wl .empty = [] ∧ (∀ c, l.cv c = none) ∧ l.pc 1 = .pYield .full (.pushW 1) ∧
    l.pc 2 = .idle ∧ l.pc 3 = .idle

open Monitor in
theorem push_runs (n k : Nat) (l0 : Low (Chan.Ch Nat) Chan.Cv (Chan.Op Nat) (Chan.Res Nat)) (h0 : PushP n l0) : ∃ l, PushP n l ∧
    runs (Full.step (Chan.obj (.fixed (n + 1)))) ⟨l0, Mutex.St.init, false⟩ (pushAct k) = some (⟨l, Mutex.St.init, false⟩, pushTrace k) := by
  induction k with
  | zero => exact ⟨l0, h0, rfl⟩
  | succ k ih =>
    obtain ⟨l, ⟨p1, p2, p3, p4, p5, p6, p7⟩, h⟩ := ih
    obtain ⟨l1, h1, a1, a2, a3, a4, a5⟩ := call_one_some (Chan.obj (.fixed (n + 1))) l false 3 1 [] .pop ⟨List.replicate n 0, false⟩ [.got 3 0] (.popped (some 0)) .full
      p7 (by simp [Chan.obj, Chan.popBody, p1, List.replicate_succ]) (p4 _) p2
    obtain ⟨l2, h2, b1, b2, b3, b4, b5⟩ := call_one_none (Chan.obj (.fixed (n + 1))) l1 false 2 (.push 0) ⟨List.replicate (n + 1) 0, false⟩ [.accepted 2 0] (.pushed true) .empty
      (by simp [a5, p6]) (by simp [Chan.obj, Chan.enter, a1, List.replicate_succ']) (by simp [a3, p4]) (by simp [a2, p3])
    obtain ⟨l3, h3, c1, c2, c3, c4, c5⟩ := again_park (Chan.obj (.fixed (n + 1))) l2 false 1 (.pushW 1) (.pushW 1) ⟨List.replicate (n + 1) 0, false⟩ [] .full
      (by simp [b5, a5, p5]) (by simp [b4, a4]) (by simp [Chan.obj, b1]) (by simp [b3, a3, p4])
    refine ⟨l3, ?_, runs_append h (runs_append (runs_append h1 h2) h3)⟩
    simp [PushP, c1, c2, c3, c5, b2, b3, b5, a2, a3, a5, p3, p4, p6]

/-- **C115, negation for the senders of a channel** of any capacity but 0. However large `k`: coroutine 1 waits in `push` on the full channel
while `k` further pushes of another coroutine are accepted; coroutine 1 is still waiting. -/
theorem C115_sender_starved (n k : Nat) : ∃ as as' f f' es es',
    runs (Monitor.Full.step (Chan.obj (.fixed (n + 1)))) (Monitor.Full.init Chan.Ch.init) as = some (f, es ++ [.call 1 (.push 1)]) ∧
    f.low.pc 1 = .pYield .full (.pushW 1) ∧ runs (Monitor.Full.step (Chan.obj (.fixed (n + 1)))) f as' = some (f', es') ∧
    es'.count (.lin (.accepted 2 0)) = k ∧ (∀ v, .ret 1 v ∉ es') ∧ f'.low.pc 1 = .pYield .full (.pushW 1) := by
  obtain ⟨l, es, ⟨p1, p2, p3, p4, p5⟩, h⟩ := fill_runs (n + 1) (n + 1) (Nat.le_refl _)
  obtain ⟨l1, h1, a1, a2, a3, a4, a5⟩ := Monitor.call_park (Chan.obj (.fixed (n + 1))) l false 1 (.push 1) (.pushW 1) ⟨List.replicate (n + 1) 0, false⟩ [] .full
    (p5 1) (by simp [Chan.obj, p1]) (p4 _)
  have hp : PushP n l1 := by simp [PushP, a1, a2, a3, a5, p2, p3, p4, p5]
  obtain ⟨l2, hp2, h2⟩ := push_runs n k l1 hp
  refine ⟨_, _, _, _, es, _, runs_append h h1, hp.2.2.2.2.1, h2, ?_, ?_, hp2.2.2.2.2.1⟩
  · clear h2
    induction k with
    | zero => rfl
    | succ k ih => simp [pushTrace, List.count_append, List.count_cons, ih]
  · clear h2
    induction k with
    | zero => simp [pushTrace]
    | succ k ih => intro v; simp [pushTrace, ih v]

/-- Room for two values, one value passes coroutine 1 by. -/
example : ((runs (Monitor.Full.step (Chan.obj (.fixed 2))) (Monitor.Full.init Chan.Ch.init) (fillAct 2 ++ ([.call 1 (.push 1)] ++ Monitor.solo 1 14) ++ pushAct 1)).map
    fun r => (r.2.drop 6, r.1.low.asleep 1)) =
    some ([.call 1 (.push 1), .call 3 .pop, .lin (.got 3 0), .ret 3 (.popped (some 0)), .call 2 (.push 0), .lin (.accepted 2 0), .ret 2 (.pushed true)], true) := by
  decide +kernel

/-! ## The shared mutex -/

/-- Schedule. Coroutine 2 has the mutex shared, the writer 1 queues and goes to sleep. (Concerns co_mutex.cpp:18-108, co_counting_semaphore.h:45-105.) -/
def rwSetup : List SharedMutex.Act :=
  [.callLock .shared 2, .run 2 true, .run 2 true, .run 2 true, .callLock .unique 1, .run 1 true, .run 1 true, .run 1 true, .run 1 true, .run 1 true, .run 1 true]

/-- Schedule. Coroutine 3 locks it shared, 2 unlocks, 2 locks it shared, 3 unlocks; `k` times. (Concerns co_mutex.cpp:18-108, co_counting_semaphore.h:45-105.) -/
def rwAct : Nat → List SharedMutex.Act
  | 0 => []
  | k + 1 => rwAct k ++ [.callLock .shared 3, .run 3 true, .run 3 true, .run 3 true, .callUnlock .shared 2, .run 2 true, .run 2 true, .run 2 true,
      .callLock .shared 2, .run 2 true, .run 2 true, .run 2 true, .callUnlock .shared 3, .run 3 true, .run 3 true, .run 3 true]

/-- The trace of `rwAct`. (Concerns co_mutex.cpp:18-108, co_counting_semaphore.h:45-105.) -/
def rwTrace : Nat → List RwSpec.Ev
  | 0 => []
  | k + 1 => rwTrace k ++ [.acq .shared 3, .unlockCall .shared 2, .unlockRet .shared 2 true, .acq .shared 2, .unlockCall .shared 3, .unlockRet .shared 3 true]

/-- Proof device: coroutine 2 has the mutex shared, the writer 1 sleeps in the queue, 3 is outside. (Concerns co_mutex.cpp:18-108, co_counting_semaphore.h:45-105.) -/
def RwP (s : SharedMutex.St) : Prop :=
  s.spin = none ∧ s.typ = some .shared ∧ s.queue = [(.unique, 1)] ∧ s.owners = [2] ∧ s.asleep 1 = true ∧ s.pc 1 = .lkParked .unique ∧
    s.pc 2 = .out ∧ s.pc 3 = .out ∧ s.hold 2 = some .shared ∧ s.hold 3 = none

theorem rw_setup : ∃ s, RwP s ∧ runs SharedMutex.step SharedMutex.St.init rwSetup = some (s, [.acq .shared 2]) := by
  refine ⟨_, ?_, by
    simp [rwSetup, runs, SharedMutex.step, SharedMutex.runStep, SharedMutex.St.init, SharedMutex.St.goto, SharedMutex.St.acquire,
      SharedMutex.St.canTake, SharedMutex.St.take, SharedMutex.insertOwner, upd_apply]; rfl⟩
  simp [RwP, upd_apply]

theorem rw_runs (k : Nat) (s0 : SharedMutex.St) (h0 : RwP s0) : ∃ s, RwP s ∧ runs SharedMutex.step s0 (rwAct k) = some (s, rwTrace k) := by
  induction k with
  | zero => exact ⟨s0, h0, rfl⟩
  | succ k ih =>
    obtain ⟨s, ⟨h1, h2, h3, h4, h5, h6, h7, h8, h9, h10⟩, h⟩ := ih
    obtain ⟨sp, ty, q, ow, asl, pc, ho⟩ := s
    simp only at h1 h2 h3 h4 h5 h6 h7 h8 h9 h10
    subst h1 h2 h3 h4
    refine ⟨_, ?_, runs_append h (by
      simp [runs, SharedMutex.step, SharedMutex.runStep, SharedMutex.St.goto, SharedMutex.St.acquire, SharedMutex.St.canTake, SharedMutex.St.take,
        SharedMutex.St.wake, SharedMutex.insertOwner, upd_apply, h7, h8, h9, h10]; rfl)⟩
    simp [RwP, upd_apply, h5, h6]

/-- **C115, negation for the writers of a shared mutex.** However large `k`: the writer 1 is queued and asleep while two readers lock the
mutex shared `2 * k` times more; the writer is still asleep. -/
theorem C115_writer_starved (k : Nat) : ∃ as as' s s' es,
    runs SharedMutex.step SharedMutex.St.init as = some (s, [.acq .shared 2]) ∧ s.queue = [(.unique, 1)] ∧ s.asleep 1 = true ∧
    runs SharedMutex.step s as' = some (s', es) ∧ (es.filter fun e => match e with | .acq .shared _ => true | _ => false).length = 2 * k ∧
    .acq .unique 1 ∉ es ∧ s'.queue = [(.unique, 1)] ∧ s'.asleep 1 = true := by
  obtain ⟨s, hs, h1⟩ := rw_setup
  obtain ⟨s', hs', h2⟩ := rw_runs k s hs
  refine ⟨_, _, s, s', _, h1, hs.2.2.1, hs.2.2.2.2.1, h2, ?_, ?_, hs'.2.2.1, hs'.2.2.2.2.1⟩
  · clear h2
    induction k with
    | zero => rfl
    | succ k ih => simp [rwTrace, ih]; omega
  · clear h2
    induction k with
    | zero => simp [rwTrace]
    | succ k ih => simp [rwTrace, ih]

/-- One round; then the readers stop, and the writer gets the mutex. -/
example : (runs SharedMutex.step SharedMutex.St.init (rwSetup ++ rwAct 1 ++ [.callUnlock .shared 2, .run 2 true, .run 2 true, .run 2 true, .run 1 true, .run 1 true,
    .run 1 true, .run 1 true])).map Prod.snd =
    some [.acq .shared 2, .acq .shared 3, .unlockCall .shared 2, .unlockRet .shared 2 true, .acq .shared 2, .unlockCall .shared 3, .unlockRet .shared 3 true,
      .unlockCall .shared 2, .unlockRet .shared 2 true, .acq .unique 1] := by decide +kernel

end Verif.Starve
