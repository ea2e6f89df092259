import Verif.Sched.WakeFree
import Verif.Sync.RecMutexInv
import Verif.Sync.SharedMutexInv
import Verif.Monitor.LowInv

/-! # The other wakers of the library hold the lock the woken coroutine needs (C106)

As `Verif.Mutex.C106_mutex_wakes_under_spinlock`, for the recursive and the shared mutex, and for every object built from a mutex and
condition variables (semaphore, latch, wait group, barrier, channel). -/

namespace Verif.RecMutex
open LockSpec

/-- `a` is at the end of its `unlock()` with the spinlock, `u` is inside `lock()` without it. (Concerns co_ctx.cpp:64-207.) -/
def Held (a u : Tid) (s : St) : Prop :=
  s.spin = some a ∧ s.pc a = .ulRet true ∧ (s.pc u = .lkParked ∨ s.pc u = .lkReacq2)

theorem held_step (a u : Tid) (s s' : St) (x : Act) (es : List Ev) (hi : Inv s) (h : Held a u s) (hx : ∀ b, x ≠ .run a b)
    (hs : step s x = some (s', es)) : Held a u s' ∧ .acq u ∉ es := by
  obtain ⟨h1, h2, h3⟩ := h
  cases x with
  | callLock t =>
    simp only [step, St.goto] at hs
    split at hs <;> cases hs
    simp only [Held]
    grind
  | callTry t =>
    simp only [step, St.goto] at hs
    split at hs <;> cases hs
    simp only [Held]
    grind
  | callUnlock t =>
    simp only [step] at hs
    split at hs <;> cases hs
    simp only [Held]
    grind
  | run t b =>
    have hta : t ≠ a := fun e => hx b (by rw [e])
    have hsp : (s.pc t).spin = false := by
      by_contra hc
      have := (hi.spin t).1 (by simpa using hc)
      rw [h1] at this
      exact hta (Option.some.inj this).symm
    simp only [step, runStep] at hs
    cases hp : s.pc t <;> simp only [hp, Pc.spin, reduceCtorEq] at hsp <;> simp only [hp, St.acquire, St.goto] at hs <;>
      (try split at hs) <;> (try cases hs) <;> simp only [Held] <;> grind

/-- **C106** for co_recursive_mutex: when a step of `a` has woken `u`, then as long as `a` has not released the internal spinlock (its next
step), whatever the others do, `u` is still inside its `lock()` and the spinlock is `a`'s. -/
theorem C106_wakes_under_spinlock (as bs : List Act) (s s1 s2 : St) (e0 e1 e2 : List Ev) (a u : Tid) (b : Bool)
    (hr : runs step St.init as = some (s, e0)) (hw : s.asleep u = true) (h1 : step s (.run a b) = some (s1, e1))
    (hw1 : s1.asleep u = false) (hb : ∀ x, .run a x ∉ bs) (h2 : runs step s1 bs = some (s2, e2)) :
    s2.spin = some a ∧ (s2.pc u = .lkParked ∨ s2.pc u = .lkReacq2) ∧ .acq u ∉ e2 := by
  have hi : Inv s := runs_inv Inv inv_step as St.init s e0 inv_init hr
  have h0 : Held a u s1 := by
    have hu : s.pc u = .lkSleep ∨ s.pc u = .lkParked := by
      have hl := hi.loc u
      cases hp : s.pc u <;> simp only [Loc, hp] at hl <;> grind
    have hsa := hi.spin a
    have hsu := hi.spin u
    simp only [step, runStep] at h1
    cases hp : s.pc a <;> simp only [hp, St.acquire, St.goto, St.take] at h1 <;>
      (try split at h1) <;> (try split at h1) <;> (try split at h1) <;> (try cases h1) <;> simp only [Held] <;>
      grind [Pc.spin]
  have hi1 : Inv s1 := inv_step s _ s1 e1 hi h1
  have gen : ∀ (bs : List Act) (s1 : St) (e2 : List Ev), (∀ x, .run a x ∉ bs) → Inv s1 → Held a u s1 →
      runs step s1 bs = some (s2, e2) → Held a u s2 ∧ .acq u ∉ e2 := by
    intro bs
    induction bs with
    | nil => intro s1 e2 _ _ h0 h2; cases h2; exact ⟨h0, by simp⟩
    | cons x bs ih =>
      intro s1 e2 hb hi1 h0 h2
      obtain ⟨s', ea, eb, ha, hb', rfl⟩ := runs_cons h2
      obtain ⟨hh, hn⟩ := held_step a u s1 s' x ea hi1 h0 (fun b e => hb b (by rw [e]; simp)) ha
      obtain ⟨hh2, hn2⟩ := ih s' eb (fun b hm => hb b (by simp [hm])) (inv_step s1 x s' ea hi1 ha) hh hb'
      exact ⟨hh2, by simp [hn, hn2]⟩
  obtain ⟨hh, hn⟩ := gen bs s1 e2 hb hi1 h0 h2
  exact ⟨hh.1, hh.2.2, hn⟩

/-- Coroutine 0 has the mutex twice, coroutine 1 sleeps; the second `unlock()` wakes it. (Concerns co_ctx.cpp:64-207.) -/
def wakeRun : List Act :=
  [.callLock 0, .run 0 false, .run 0 false, .run 0 false, .callLock 0, .run 0 false, .run 0 false, .run 0 false,
    .callLock 1, .run 1 false, .run 1 false, .run 1 true, .run 1 false, .run 1 false, .run 1 false,
    .callUnlock 0, .run 0 false, .run 0 false, .run 0 false, .callUnlock 0, .run 0 false]

example : ∃ s s1 s2 : St, ∃ e0 e1 e2, runs step St.init wakeRun = some (s, e0) ∧ s.asleep 1 = true ∧
    step s (.run 0 false) = some (s1, e1) ∧ s1.asleep 1 = false ∧ runs step s1 [.run 1 false, .callTry 2] = some (s2, e2) ∧
    s2.pc 1 = .lkReacq2 :=
  ⟨_, _, _, _, _, _, rfl, rfl, rfl, rfl, rfl, rfl⟩

end Verif.RecMutex

namespace Verif.SharedMutex
open RwSpec

/-- 62-64 / 147-149: where a coroutine sleeps. (Concerns co_ctx.cpp:64-207.) -/
def Pc.bed : Pc → Bool
  | .lkSleep _ | .lkParked _ => true
  | _ => false

/-- Who has the spinlock is where it is held; who sleeps is in `lock()` (also in the executions in which `wake_up_waiters__` goes wrong). (Concerns co_ctx.cpp:64-207.) -/
structure Basic (s : St) : Prop where
  spin : ∀ t, (s.pc t).spin = true ↔ s.spin = some t
  asl : ∀ t, s.asleep t = true → (s.pc t).bed = true

theorem asleep_wake (s : St) (t : Tid) (h : s.wake.asleep t = true) : s.asleep t = true := by
  unfold St.wake at h
  split at h
  · exact h
  · split at h
    · exact h
    · simp only [upd_apply] at h
      split at h
      · cases h
      · exact h
    · simp only [foldl_upd_false] at h
      grind

theorem pc_wake (s : St) : s.wake.pc = s.pc ∧ s.wake.spin = s.spin := by
  unfold St.wake
  split
  · exact ⟨rfl, rfl⟩
  · split <;> exact ⟨rfl, rfl⟩

theorem basic_step (s : St) (x : Act) (s' : St) (es : List Ev) (h : Basic s) (hs : step s x = some (s', es)) : Basic s' := by
  obtain ⟨h1, h2⟩ := h
  cases x with
  | callLock m t =>
    simp only [step, St.goto] at hs
    split at hs <;> cases hs
    constructor <;> grind [Pc.spin, Pc.bed]
  | callTry m t =>
    simp only [step, St.goto] at hs
    split at hs <;> cases hs
    constructor <;> grind [Pc.spin, Pc.bed]
  | callUnlock m t =>
    simp only [step] at hs
    split at hs <;> cases hs
    constructor <;> grind [Pc.spin, Pc.bed]
  | run t b =>
    have h1t := h1 t
    have h2t := h2 t
    simp only [step, runStep] at hs
    cases hp : s.pc t
    case ulTest m hh =>
      simp only [hp] at hs
      split at hs
      · cases hs; simp only [St.goto]; constructor <;> grind [Pc.spin, Pc.bed]
      · cases hs
        have hpw := pc_wake { s with owners := s.owners.erase t }
        constructor
        · intro u
          simp only [St.goto]
          rw [hpw.1, hpw.2]
          grind [Pc.spin, Pc.bed]
        · intro u hu
          have := asleep_wake _ u hu
          simp only [St.goto]
          rw [hpw.1]
          grind [Pc.bed]
    all_goals
      simp only [hp, St.acquire, St.goto, St.take] at hs
      (try split at hs) <;> (try split at hs) <;> (try cases hs) <;> constructor <;> grind [Pc.spin, Pc.bed]

/-- `a` is at the end of its unlock with the spinlock, `u` is inside `lock()` or `lock_shared()` without it. (Concerns co_ctx.cpp:64-207.) -/
def Held (a u : Tid) (s : St) : Prop :=
  s.spin = some a ∧ (∃ m, s.pc a = .ulRet m true) ∧ ∃ m, s.pc u = .lkParked m ∨ s.pc u = .lkReacq2 m

theorem held_step (a u : Tid) (s s' : St) (x : Act) (es : List Ev) (hi : Basic s) (h : Held a u s) (hx : ∀ b, x ≠ .run a b)
    (hs : step s x = some (s', es)) : Held a u s' ∧ ∀ m, .acq m u ∉ es := by
  obtain ⟨h1, h2, h3⟩ := h
  cases x with
  | callLock m t =>
    simp only [step, St.goto] at hs
    split at hs <;> cases hs
    simp only [Held]
    grind
  | callTry m t =>
    simp only [step, St.goto] at hs
    split at hs <;> cases hs
    simp only [Held]
    grind
  | callUnlock m t =>
    simp only [step] at hs
    split at hs <;> cases hs
    simp only [Held]
    grind
  | run t b =>
    have hta : t ≠ a := fun e => hx b (by rw [e])
    have hsp : (s.pc t).spin = false := by
      by_contra hc
      have := (hi.spin t).1 (by simpa using hc)
      rw [h1] at this
      exact hta (Option.some.inj this).symm
    simp only [step, runStep] at hs
    cases hp : s.pc t <;> simp only [hp, Pc.spin, reduceCtorEq] at hsp <;> simp only [hp, St.acquire, St.goto] at hs <;>
      (try split at hs) <;> (try cases hs) <;> simp only [Held] <;> grind

/-- **C106** for co_shared_mutex: when a step of `a` has woken `u`, then as long as `a` has not released the internal spinlock (its next
step), whatever the others do, `u` is still inside its `lock()` or `lock_shared()`. -/
theorem C106_wakes_under_spinlock (as bs : List Act) (s s1 s2 : St) (e0 e1 e2 : List Ev) (a u : Tid) (b : Bool)
    (hr : runs step St.init as = some (s, e0)) (hw : s.asleep u = true) (h1 : step s (.run a b) = some (s1, e1))
    (hw1 : s1.asleep u = false) (hb : ∀ x, .run a x ∉ bs) (h2 : runs step s1 bs = some (s2, e2)) :
    s2.spin = some a ∧ (∃ m, s2.pc u = .lkParked m ∨ s2.pc u = .lkReacq2 m) ∧ ∀ m, .acq m u ∉ e2 := by
  have hi : Basic s := runs_inv Basic basic_step as St.init s e0 (by constructor <;> simp [St.init, Pc.spin]) hr
  have h0 : Held a u s1 := by
    have hu : ∃ m, s.pc u = .lkSleep m ∨ s.pc u = .lkParked m := by
      have := hi.asl u hw
      cases hp : s.pc u <;> simp [hp, Pc.bed] at this ⊢
    have hsa := hi.spin a
    have hsu := hi.spin u
    simp only [step, runStep] at h1
    cases hp : s.pc a
    case ulTest m hh =>
      simp only [hp] at h1
      split at h1
      · cases h1; simp only [St.goto] at hw1; grind
      · cases h1
        have hpw := pc_wake { s with owners := s.owners.erase a }
        simp only [Held, St.goto]
        rw [hpw.1, hpw.2]
        grind [Pc.spin]
    all_goals
      simp only [hp, St.acquire, St.goto, St.take] at h1
      (try split at h1) <;> (try split at h1) <;> (try cases h1) <;> simp only [Held] <;> grind [Pc.spin]
  have hi1 : Basic s1 := basic_step s _ s1 e1 hi h1
  have gen : ∀ (bs : List Act) (s1 : St) (e2 : List Ev), (∀ x, .run a x ∉ bs) → Basic s1 → Held a u s1 →
      runs step s1 bs = some (s2, e2) → Held a u s2 ∧ ∀ m, .acq m u ∉ e2 := by
    intro bs
    induction bs with
    | nil => intro s1 e2 _ _ h0 h2; cases h2; exact ⟨h0, by simp⟩
    | cons x bs ih =>
      intro s1 e2 hb hi1 h0 h2
      obtain ⟨s', ea, eb, ha, hb', rfl⟩ := runs_cons h2
      obtain ⟨hh, hn⟩ := held_step a u s1 s' x ea hi1 h0 (fun b e => hb b (by rw [e]; simp)) ha
      obtain ⟨hh2, hn2⟩ := ih s' eb (fun b hm => hb b (by simp [hm])) (basic_step s1 x s' ea hi1 ha) hh hb'
      exact ⟨hh2, fun m => by simp [hn m, hn2 m]⟩
  obtain ⟨hh, hn⟩ := gen bs s1 e2 hb hi1 h0 h2
  exact ⟨hh.1, hh.2.2, hn⟩

/-- Coroutine 0 has the mutex as writer, coroutine 1 sleeps in `lock_shared()`; coroutine 0 unlocks. (Concerns co_ctx.cpp:64-207.) -/
def wakeRun : List Act :=
  [.callLock .unique 0, .run 0 false, .run 0 false, .run 0 false, .callLock .shared 1, .run 1 false, .run 1 false, .run 1 true,
    .run 1 false, .run 1 false, .run 1 false, .callUnlock .unique 0, .run 0 false]

example : ∃ s s1 s2 : St, ∃ e0 e1 e2, runs step St.init wakeRun = some (s, e0) ∧ s.asleep 1 = true ∧
    step s (.run 0 false) = some (s1, e1) ∧ s1.asleep 1 = false ∧ runs step s1 [.run 1 false] = some (s2, e2) ∧
    s2.pc 1 = .lkReacq2 .shared :=
  ⟨_, _, _, _, _, _, rfl, rfl, rfl, rfl, rfl, rfl⟩

end Verif.SharedMutex

namespace Verif.Monitor
section
variable {σ C K V E : Type} [DecidableEq C]

/-- The next step at this point releases the mutex: the section is over (end of the `unique_lock`'s scope), or h:61 in a wait. All
notifications of the section have been made then. (Concerns co_ctx.cpp:64-207.) -/
def Pc.releases : Pc C K V → Bool
  | .sig [] (.ret _) | .sig [] (.next _) | .pUnlk _ _ => true
  | _ => false

/-- `a` has the mutex; `u` is inside a wait and has not got it back. (Concerns co_ctx.cpp:64-207.) -/
def Held (a u : Tid) (s : Low σ C K V) : Prop :=
  s.mtx = some a ∧ ((∃ c k, s.pc u = .pYield c k) ∨ ∃ k, s.pc u = .acq k)

theorem held_step {o : Obj σ C K V E} (a u : Tid) (s s' : Low σ C K V) (x : Act K) (es : List (Ev K V E)) (hi : s.Inv) (h : Held a u s)
    (hx : x = .run a → (s.pc a).releases = false) (hs : Low.step o s x = some (s', es)) : Held a u s' ∧ ∀ v, .ret u v ∉ es := by
  obtain ⟨h1, h2⟩ := h
  have ha := (hi.m a).2 h1
  have hua : u ≠ a := by rintro rfl; rcases h2 with ⟨c, k, h⟩ | ⟨k, h⟩ <;> rw [h] at ha <;> cases ha
  cases x with
  | call t k =>
    simp only [Low.step, Low.goto] at hs
    split at hs <;> cases hs
    simp only [Held]
    grind
  | run t =>
    have hm := (hi.m t).1
    have hrel : t = a → (s.pc a).releases = false := fun e => hx (by rw [e])
    simp only [Low.step, Low.runStep] at hs
    split at hs <;> (try split at hs) <;> (try cases hs) <;> simp only [Held, Low.goto] <;> grind [Pc.hasM, Pc.releases]

/-- **C106** for all objects built from a mutex and condition variables: when a step of `a` has woken `u`, then `u` is still inside its
wait, without the mutex, until `a` releases the mutex; and `a` does that only when all notifications of its section are over. -/
theorem C106_objects {o : Obj σ C K V E} {s0 : σ} (as bs : List (Act K)) (s s1 s2 : Low σ C K V) (e0 e1 e2 : List (Ev K V E)) (a u : Tid)
    (hr : runs (Low.step o) (Low.init s0) as = some (s, e0)) (hw : s.asleep u = true) (h1 : Low.step o s (.run a) = some (s1, e1))
    (hw1 : s1.asleep u = false) (h2 : runs (Low.step o) s1 bs = some (s2, e2))
    (hb : ∀ b1 b2 sm em, bs = b1 ++ .run a :: b2 → runs (Low.step o) s1 b1 = some (sm, em) → (sm.pc a).releases = false) :
    s2.mtx = some a ∧ ((∃ c k, s2.pc u = .pYield c k) ∨ ∃ k, s2.pc u = .acq k) ∧ ∀ v, .ret u v ∉ e2 := by
  have hi : s.Inv := runs_inv Low.Inv (fun s a s' es => Low.inv_step s a s' es) as _ s e0 (Low.inv_init s0) hr
  have h0 : Held a u s1 := by
    have hpa : (∃ c l f, s.pc a = .sWake c u l f) ∨ ∃ c ws l f, s.pc a = .sAll c (u :: ws) l f := by
      simp only [Low.step, Low.runStep] at h1
      split at h1 <;> (try split at h1) <;> (try cases h1) <;> simp only [Low.goto] at hw1 <;> grind
    have hm : s.mtx = some a := (hi.m a).1 (by rcases hpa with ⟨c, l, f, h⟩ | ⟨c, ws, l, f, h⟩ <;> rw [h] <;> rfl)
    have hpu : ∃ c k, s.pc u = .pYield c k := by
      have hne : ∀ c, (s.pc a).hasC = some c → u ≠ a → (s.pc u).hasC ≠ some c := fun c hc hua h =>
        hua (Option.some.inj (((hi.c u c).1 h).symm.trans ((hi.c a c).1 hc)))
      have hua : u ≠ a := by
        rintro rfl
        have hl := hi.loc u
        rcases hpa with ⟨c, l, f, h⟩ | ⟨c, ws, l, f, h⟩ <;> simp [LocP, h, hw] at hl
      rcases hpa with ⟨c, l, f, h⟩ | ⟨c, ws, l, f, h⟩
      · obtain ⟨⟨k, hk⟩, _⟩ := (hi.loc u).woken (hne c (by rw [h]; rfl) hua) (.inl (by simp [Low.waking, hm, h]))
        exact ⟨c, k, hk⟩
      · obtain ⟨⟨k, hk⟩, _⟩ := (hi.loc u).woken (hne c (by rw [h]; rfl) hua) (.inr (by simp [Low.eff, hm, h]))
        exact ⟨c, k, hk⟩
    obtain ⟨c', k', hk⟩ := hpu
    have hua : u ≠ a := by
      rintro rfl
      rcases hpa with ⟨c, l, f, h⟩ | ⟨c, ws, l, f, h⟩ <;> rw [h] at hk <;> cases hk
    rcases hpa with ⟨c, l, f, h⟩ | ⟨c, ws, l, f, h⟩ <;> simp only [Low.step, Low.runStep, h] at h1 <;> cases h1 <;>
      exact ⟨hm, .inl ⟨c', k', by simp only [upd_other _ _ hua]; exact hk⟩⟩
  have hi1 : s1.Inv := Low.inv_step s _ s1 e1 hi h1
  have gen : ∀ (bs : List (Act K)) (s1 : Low σ C K V) (e2 : List (Ev K V E)),
      (∀ b1 b2 sm em, bs = b1 ++ .run a :: b2 → runs (Low.step o) s1 b1 = some (sm, em) → (sm.pc a).releases = false) → s1.Inv →
      Held a u s1 → runs (Low.step o) s1 bs = some (s2, e2) → Held a u s2 ∧ ∀ v, .ret u v ∉ e2 := by
    intro bs
    induction bs with
    | nil => intro s1 e2 _ _ h0 h2; cases h2; exact ⟨h0, by simp⟩
    | cons x bs ih =>
      intro s1 e2 hb hi1 h0 h2
      obtain ⟨s', ea, eb, ha, hb', rfl⟩ := runs_cons h2
      obtain ⟨hh, hn⟩ := held_step a u s1 s' x ea hi1 h0 (fun e => hb [] bs s1 [] (by rw [e]; rfl) rfl) ha
      obtain ⟨hh2, hn2⟩ := ih s' eb (fun b1 b2 sm em e hr => hb (x :: b1) b2 sm (ea ++ em) (by rw [e]; rfl) (by simp [runs, ha, hr]))
        (Low.inv_step s1 x s' ea hi1 ha) hh hb'
      exact ⟨hh2, fun v => by simp [hn v, hn2 v]⟩
  obtain ⟨hh, hn⟩ := gen bs s1 e2 hb hi1 h0 h2
  exact ⟨hh.1, hh.2, hn⟩

end

/-- 1 waits at the gate, 3 opens it and has just woken 1. (Concerns co_ctx.cpp:64-207.) -/
def gateWake : List (Act Bool) := [.call 1 true] ++ List.replicate 7 (.run 1) ++ [.call 3 false] ++ List.replicate 4 (.run 3)

example : ∃ s s1 s2 : Low Bool Unit Bool Unit, ∃ e0 e1 e2, runs (Low.step gate) (Low.init false) gateWake = some (s, e0) ∧
    s.asleep 1 = true ∧ Low.step gate s (.run 3) = some (s1, e1) ∧ s1.asleep 1 = false ∧
    runs (Low.step gate) s1 [.run 1, .run 3] = some (s2, e2) ∧ s2.pc 1 = .acq true ∧ (s1.pc 3).releases = false :=
  ⟨_, _, _, _, _, _, rfl, rfl, rfl, rfl, rfl, rfl, rfl⟩

end Verif.Monitor
