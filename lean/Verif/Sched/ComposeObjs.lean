import Verif.Sched.Compose
import Verif.Sync.MutexProps
import Verif.Sync.RecMutexProps
import Verif.Sync.SharedMutexProps
import Verif.Monitor.FullObjs

/-! # The library's blocking objects on one scheduling thread (C101)

`co_mutex`, `co_recursive_mutex`, `co_shared_mutex` and the objects built from a mutex and condition variables, each together with the
scheduler of `Verif/Sched/Env.lean` as described in `Verif/Sched/Compose.lean`. -/

namespace Verif.Compose

/-! ## co_mutex -/

/-- `co_mutex` (co_mutex.cpp:18-108) as an object that makes coroutines wait: :59 registers, :106 wakes. -/
def mutex : Obj Mutex.St Mutex.Act LockSpec.Ev where
  step := Mutex.step false
  who
    | .callLock t | .callTry t | .callUnlock t | .run t _ => t
  inner
    | .run _ _ => true
    | _ => false
  busy s t := s.pc t != .out
  asleep s t := s.asleep t
  parked s t := s.pc t == .lkParked
  parks s
    | .run t _ => s.pc t == .lkLoop && s.owner != some t
    | _ => false
  wakes s
    | .run t _ => match s.pc t with
      | .ulTest _ => if s.owner = some t then s.queue.take 1 else []
      | _ => []
    | _ => []

/-- Proof device: who sleeps is between the registration and the end of its `CoYield()`. (Concerns co_ctx.cpp:181-207, co_mutex.cpp:17-108, co_recursive_mutex.cpp:14-107, co_shared_mutex.cpp:15-218.) -/
def MutexI (s : Mutex.St) : Prop := ∀ t, s.asleep t = true → s.pc t = .lkSleep ∨ s.pc t = .lkParked

theorem mutex_sleep {s s' : Mutex.St} {a : Mutex.Act} {es : List LockSpec.Ev} (hs : Mutex.step false s a = some (s', es)) (t : Nat) :
    (s'.asleep t = true ↔ (s.asleep t = true ∨ (t = mutex.who a ∧ mutex.parks s a = true)) ∧ t ∉ mutex.wakes s a) ∧
    (t ≠ mutex.who a → s'.pc t = s.pc t) := by
  cases a with
  | callLock u | callTry u | callUnlock u =>
    simp only [Mutex.step, Mutex.St.goto] at hs
    split at hs <;> cases hs
    refine ⟨by simp [mutex], fun h => ?_⟩
    simp only [mutex] at h
    simp [h]
  | run u b =>
    simp only [Mutex.step, Mutex.runStep] at hs
    cases hp : s.pc u <;> simp only [hp, Mutex.St.acquire, Mutex.St.goto] at hs <;> (repeat' split at hs) <;> cases hs
    all_goals refine ⟨?_, fun h => by simp only [mutex] at h; simp [h]⟩
    all_goals simp only [mutex, hp]
    all_goals grind

theorem mutex_laws : Laws mutex MutexI where
  inv {s a s' es} h hs t ht := by
    have h1 := mutex_sleep hs t
    by_cases hw : t = mutex.who a
    · cases a with
      | callLock u | callTry u | callUnlock u =>
        simp only [mutex] at hw hs
        subst hw
        simp only [Mutex.step, Mutex.St.goto] at hs
        split at hs <;> cases hs
        have := h t ht
        grind
      | run u b =>
        simp only [mutex] at hw hs
        subst hw
        have hq := h t
        simp only [Mutex.step, Mutex.runStep] at hs
        cases hp : s.pc t <;> simp only [hp, Mutex.St.acquire, Mutex.St.goto] at hs <;> (repeat' split at hs) <;> cases hs
        all_goals grind
    · rw [h1.2 hw]
      apply h t
      have := h1.1.1 ht
      simp only [hw, false_and, or_false] at this
      exact this.1
  sleep _ hs t := (mutex_sleep hs t).1
  other _ hs t ht := by
    have := (mutex_sleep hs t).2 ht
    simp [mutex, this]
  stay {s t} h hs := by
    rcases h t hs with h1 | h1 <;> simp [mutex, h1]
  blocked {s a} _ hp hs := by
    cases a <;> simp only [mutex, beq_iff_eq] at hp hs <;> simp [mutex, Mutex.step, Mutex.runStep, hp, hs]
  outside {s a} _ hb ha := by
    cases a <;> simp only [mutex, Bool.false_eq_true, bne_eq_false_iff_eq] at ha hb
    simp [mutex, Mutex.step, Mutex.runStep, hb]

theorem mutex_init : MutexI Mutex.St.init := by intro t ht; simp [Mutex.St.init] at ht

/-! ## co_recursive_mutex -/

/-- `co_recursive_mutex` (co_recursive_mutex.cpp:14-107): :56 registers, :105 wakes. -/
def recMutex : Obj RecMutex.St RecMutex.Act LockSpec.Ev where
  step := RecMutex.step
  who
    | .callLock t | .callTry t | .callUnlock t | .run t _ => t
  inner
    | .run _ _ => true
    | _ => false
  busy s t := s.pc t != .out
  asleep s t := s.asleep t
  parked s t := s.pc t == .lkParked
  parks s
    | .run t _ => s.pc t == .lkLoop && s.owner != some t
    | _ => false
  wakes s
    | .run t _ => match s.pc t with
      | .ulTest _ => if s.owner = some t ∧ s.count - 1 = 0 then s.queue.take 1 else []
      | _ => []
    | _ => []

/-- Proof device: who sleeps is between the registration and the end of its `CoYield()`. (Concerns co_ctx.cpp:181-207, co_mutex.cpp:17-108, co_recursive_mutex.cpp:14-107, co_shared_mutex.cpp:15-218.) -/
def RecMutexI (s : RecMutex.St) : Prop := ∀ t, s.asleep t = true → s.pc t = .lkSleep ∨ s.pc t = .lkParked

theorem recMutex_sleep {s s' : RecMutex.St} {a : RecMutex.Act} {es : List LockSpec.Ev} (hs : RecMutex.step s a = some (s', es))
    (t : Nat) :
    (s'.asleep t = true ↔ (s.asleep t = true ∨ (t = recMutex.who a ∧ recMutex.parks s a = true)) ∧ t ∉ recMutex.wakes s a) ∧
    (t ≠ recMutex.who a → s'.pc t = s.pc t) := by
  cases a with
  | callLock u | callTry u | callUnlock u =>
    simp only [RecMutex.step, RecMutex.St.goto] at hs
    split at hs <;> cases hs
    refine ⟨by simp [recMutex], fun h => ?_⟩
    simp only [recMutex] at h
    simp [h]
  | run u b =>
    simp only [RecMutex.step, RecMutex.runStep] at hs
    cases hp : s.pc u <;> simp only [hp, RecMutex.St.acquire, RecMutex.St.goto, RecMutex.St.take] at hs <;>
      (repeat' split at hs) <;> cases hs
    all_goals refine ⟨?_, fun h => by simp only [recMutex] at h; simp [h]⟩
    all_goals simp only [recMutex, hp]
    all_goals grind

theorem recMutex_laws : Laws recMutex RecMutexI where
  inv {s a s' es} h hs t ht := by
    have h1 := recMutex_sleep hs t
    by_cases hw : t = recMutex.who a
    · cases a with
      | callLock u | callTry u | callUnlock u =>
        simp only [recMutex] at hw hs
        subst hw
        simp only [RecMutex.step, RecMutex.St.goto] at hs
        split at hs <;> cases hs
        have := h t ht
        grind
      | run u b =>
        simp only [recMutex] at hw hs
        subst hw
        have hq := h t
        simp only [RecMutex.step, RecMutex.runStep] at hs
        cases hp : s.pc t <;> simp only [hp, RecMutex.St.acquire, RecMutex.St.goto, RecMutex.St.take] at hs <;>
          (repeat' split at hs) <;> cases hs
        all_goals grind
    · rw [h1.2 hw]
      apply h t
      have := h1.1.1 ht
      simp only [hw, false_and, or_false] at this
      exact this.1
  sleep _ hs t := (recMutex_sleep hs t).1
  other _ hs t ht := by
    have := (recMutex_sleep hs t).2 ht
    simp [recMutex, this]
  stay {s t} h hs := by
    rcases h t hs with h1 | h1 <;> simp [recMutex, h1]
  blocked {s a} _ hp hs := by
    cases a <;> simp only [recMutex, beq_iff_eq] at hp hs <;> simp [recMutex, RecMutex.step, RecMutex.runStep, hp, hs]
  outside {s a} _ hb ha := by
    cases a <;> simp only [recMutex, Bool.false_eq_true, bne_eq_false_iff_eq] at ha hb
    simp [recMutex, RecMutex.step, RecMutex.runStep, hb]

theorem recMutex_init : RecMutexI RecMutex.St.init := by intro t ht; simp [RecMutex.St.init] at ht

/-! ## co_shared_mutex -/

/-- The coroutines a `wake_up_waiters__` wakes (co_shared_mutex.cpp:185-218). -/
def sharedWoken (s : SharedMutex.St) : List Nat :=
  match s.owners with
  | _ :: _ => []
  | [] =>
    match s.queue with
    | [] => []
    | (.unique, u) :: _ => [u]
    | (.shared, u) :: rest =>
      let r := SharedMutex.removeIf SharedMutex.isShared ((.shared, u) :: rest)
      (r.1.drop r.2).map Prod.snd

/-- `co_shared_mutex` (co_shared_mutex.cpp:14-218). -/
def sharedMutex : Obj SharedMutex.St SharedMutex.Act RwSpec.Ev where
  step := SharedMutex.step
  who
    | .callLock _ t | .callTry _ t | .callUnlock _ t | .run t _ => t
  inner
    | .run _ _ => true
    | _ => false
  busy s t := s.pc t != .out
  asleep s t := s.asleep t
  parked s t := match s.pc t with
    | .lkParked _ => true
    | _ => false
  parks s
    | .run t _ => match s.pc t with
      | .lkLoop _ => !decide (t ∈ s.owners)
      | _ => false
    | _ => false
  wakes s
    | .run t _ => match s.pc t with
      | .ulTest m _ => if s.typ ≠ some m ∨ t ∉ s.owners then [] else sharedWoken { s with owners := s.owners.erase t }
      | _ => []
    | _ => []

/-- Proof device: who sleeps is between the registration and the end of its `CoYield()`. (Concerns co_ctx.cpp:181-207, co_mutex.cpp:17-108, co_recursive_mutex.cpp:14-107, co_shared_mutex.cpp:15-218.) -/
def SharedMutexI (s : SharedMutex.St) : Prop := ∀ t, s.asleep t = true → ∃ m, s.pc t = .lkSleep m ∨ s.pc t = .lkParked m

theorem wake_sleep (s : SharedMutex.St) (t : Nat) : s.wake.pc = s.pc ∧
    (s.wake.asleep t = true ↔ s.asleep t = true ∧ t ∉ sharedWoken s) := by
  simp only [SharedMutex.St.wake, sharedWoken]
  split
  · rename_i ho; simp [ho]
  · rename_i ho
    split
    · rename_i hq; simp [ho, hq]
    · refine ⟨rfl, ?_⟩
      grind
    · refine ⟨rfl, ?_⟩
      simp only [SharedMutex.foldl_upd_false]
      grind

theorem sharedMutex_sleep {s s' : SharedMutex.St} {a : SharedMutex.Act} {es : List RwSpec.Ev}
    (hs : SharedMutex.step s a = some (s', es)) (t : Nat) :
    (s'.asleep t = true ↔ (s.asleep t = true ∨ (t = sharedMutex.who a ∧ sharedMutex.parks s a = true)) ∧ t ∉ sharedMutex.wakes s a) ∧
    (t ≠ sharedMutex.who a → s'.pc t = s.pc t) := by
  cases a with
  | callLock m u | callTry m u | callUnlock m u =>
    simp only [SharedMutex.step, SharedMutex.St.goto] at hs
    split at hs <;> cases hs
    refine ⟨by simp [sharedMutex], fun h => ?_⟩
    simp only [sharedMutex] at h
    simp [h]
  | run u b =>
    simp only [SharedMutex.step, SharedMutex.runStep] at hs
    cases hp : s.pc u
    case ulTest m h =>
      simp only [hp, SharedMutex.St.goto] at hs
      split at hs
      · rename_i hc
        cases hs
        refine ⟨?_, fun h => by simp only [sharedMutex] at h; simp [h]⟩
        simp only [sharedMutex, hp, if_pos hc]; simp
      · rename_i hc
        cases hs
        have hw := wake_sleep { s with owners := s.owners.erase u } t
        refine ⟨?_, fun h => by simp only [sharedMutex] at h; simp [hw.1, h]⟩
        simp only [sharedMutex, hp, if_neg hc]
        simpa using hw.2
    all_goals simp only [hp, SharedMutex.St.acquire, SharedMutex.St.goto, SharedMutex.St.take] at hs <;> (repeat' split at hs) <;> cases hs
    all_goals refine ⟨?_, fun h => by simp only [sharedMutex] at h; simp [h]⟩
    all_goals simp only [sharedMutex, hp]
    all_goals grind

theorem sharedMutex_laws : Laws sharedMutex SharedMutexI where
  inv {s a s' es} h hs t ht := by
    have h1 := sharedMutex_sleep hs t
    by_cases hw : t = sharedMutex.who a
    · cases a with
      | callLock m u | callTry m u | callUnlock m u =>
        simp only [sharedMutex] at hw hs
        subst hw
        simp only [SharedMutex.step, SharedMutex.St.goto] at hs
        split at hs <;> cases hs
        have := h t ht
        grind
      | run u b =>
        simp only [sharedMutex] at hw hs
        subst hw
        have hq := h t
        simp only [SharedMutex.step, SharedMutex.runStep] at hs
        cases hp : s.pc t
        case lkLoop m =>
          simp only [hp, SharedMutex.St.goto] at hs
          split at hs <;> cases hs <;> grind
        case lkSleep m =>
          simp only [hp] at hs
          cases hs
          exact ⟨m, .inr (by simp)⟩
        all_goals
          exfalso
          have h2 := h1.1.1 ht
          simp only [sharedMutex, hp, Bool.false_eq_true, and_false, or_false] at h2
          obtain ⟨k, hk⟩ := hq h2.1
          rw [hp] at hk
          simp only [reduceCtorEq, or_self] at hk
        simp only [hp, h2.1, if_true] at hs
        cases hs
    · obtain ⟨m, hm⟩ := h t (by
        have := h1.1.1 ht
        simp only [hw, false_and, or_false] at this
        exact this.1)
      exact ⟨m, by rw [h1.2 hw]; exact hm⟩
  sleep _ hs t := (sharedMutex_sleep hs t).1
  other _ hs t ht := by
    have := (sharedMutex_sleep hs t).2 ht
    simp [sharedMutex, this]
  stay {s t} h hs := by
    obtain ⟨m, h1 | h1⟩ := h t hs <;> simp [sharedMutex, h1]
  blocked {s a} _ hp hs := by
    cases a <;> simp only [sharedMutex] at hp hs <;> split at hp <;> simp only [Bool.false_eq_true] at hp <;> rename_i m hpc <;>
      simp [sharedMutex, SharedMutex.step, SharedMutex.runStep, hpc, hs]
  outside {s a} _ hb ha := by
    cases a <;> simp only [sharedMutex, Bool.false_eq_true, bne_eq_false_iff_eq] at ha hb
    simp [sharedMutex, SharedMutex.step, SharedMutex.runStep, hb]

theorem sharedMutex_init : SharedMutexI SharedMutex.St.init := by intro t ht; simp [SharedMutex.St.init] at ht

/-! ## Monitors -/

section
open Monitor
variable {σ C K V E : Type} [DecidableEq C]

/-- An object made of a `co_mutex` and condition variables, with every step of both: the waits are those of `lock()` and of
co_condition_variable.h:62, the wake-ups those of `unlock()` and of `notify` (co_condition_variable.cpp:24, 39). One resource `R` stands for
the mutex and the condition variables of the object; a coroutine never waits for two of them (`C22_wakes_its_own`). -/
def monitor (o : Monitor.Obj σ C K V E) : Obj (Full σ C K V) (FAct K) (Monitor.Ev K V E) where
  step := Full.step o
  who
    | .call t _ | .run t _ => t
  inner
    | .run _ _ => true
    | _ => false
  busy f t := match f.low.pc t with
    | .idle => false
    | _ => true
  asleep f t := f.low.asleep t || f.mx.asleep t
  parked f t := f.mx.pc t == .lkParked || (f.mx.pc t == .out && match f.low.pc t with
    | .pYield _ _ => true
    | _ => false)
  parks f
    | .run t b => if f.mx.pc t = .out then (match f.low.pc t with
      | .pSleep _ _ => true
      | _ => false) else mutex.parks f.mx (.run t b)
    | _ => false
  wakes f
    | .run t b => if f.mx.pc t = .out then (match f.low.pc t with
      | .sWake _ u _ _ => [u]
      | .sAll _ (u :: _) _ _ => [u]
      | _ => []) else mutex.wakes f.mx (.run t b)
    | _ => []

theorem low_sleep {o : Monitor.Obj σ C K V E} {s s' : Low σ C K V} {u : Tid} {es : List (Monitor.Ev K V E)}
    (hs : s.runStep o u = some (s', es)) (t : Nat) :
    s'.asleep t = true ↔ (s.asleep t = true ∨ (t = u ∧ (match s.pc u with
      | .pSleep _ _ => true
      | _ => false) = true)) ∧ t ∉ (match s.pc u with
      | .sWake _ v _ _ => [v]
      | .sAll _ (v :: _) _ _ => [v]
      | _ => []) := by
  simp only [Low.runStep] at hs
  cases hp : s.pc u
  case sig l fn =>
    rcases l with _ | ⟨g, l⟩
    · cases fn <;> simp only [hp] at hs
      · cases hs; simp
      · cases hs; simp
      · split at hs <;> cases hs; simp
    · simp only [hp] at hs
      split at hs <;> cases hs; simp
  case sGo g l fn =>
    cases g <;> simp only [hp] at hs
    · split at hs <;> cases hs <;> simp [Low.goto]
    · cases hs; simp [Low.goto]
  case sAll c ws l fn =>
    cases ws <;> simp only [hp] at hs <;> cases hs
    · simp
    · simp only; grind
  case sWake c v l fn =>
    simp only [hp] at hs; cases hs; simp only; grind
  case pSleep c k =>
    simp only [hp] at hs; cases hs; simp only; grind
  all_goals simp only [hp] at hs
  all_goals first
    | (cases hs; done)
    | (cases hs; simp [Low.goto]; done)
    | (split at hs <;> cases hs <;> simp [Low.goto])

/-- Proof device. (Concerns co_ctx.cpp:181-207, co_mutex.cpp:17-108, co_recursive_mutex.cpp:14-107, co_shared_mutex.cpp:15-218.) -/
def MonitorI (o : Monitor.Obj σ C K V E) (s0 : σ) (f : Full σ C K V) : Prop := Reach (Full.step o) (Full.init s0) f

theorem MonitorI.inv {o : Monitor.Obj σ C K V E} {s0 : σ} {f : Full σ C K V} (h : MonitorI o s0 f) : f.Inv := by
  obtain ⟨as, es, h⟩ := h
  exact (Full.sim_init h).1

theorem back_low {f : Full σ C K V} {m : Mutex.St} {t u : Tid} {l : List LockSpec.Ev} :
    (f.back (E := E) m t l).1.mx = m ∧ (f.back (E := E) m t l).1.low.asleep = f.low.asleep ∧
    (u ≠ t → (f.back (E := E) m t l).1.low.pc u = f.low.pc u) := by
  have hl : (f.low.locked t).asleep = f.low.asleep ∧ (u ≠ t → (f.low.locked t).pc u = f.low.pc u) := by
    simp only [Low.locked]
    split
    · exact ⟨rfl, fun h => by simp [h]⟩
    · exact ⟨rfl, fun _ => rfl⟩
  have hu : (f.low.unlocked (E := E) t).1.asleep = f.low.asleep ∧ (u ≠ t → (f.low.unlocked (E := E) t).1.pc u = f.low.pc u) := by
    simp only [Low.unlocked]
    split
    all_goals first
      | exact ⟨rfl, fun h => by simp [h]⟩
      | exact ⟨rfl, fun _ => rfl⟩
  simp only [Full.back]
  split
  · exact ⟨rfl, hl⟩
  · exact ⟨rfl, hu⟩
  · exact ⟨rfl, rfl, fun _ => rfl⟩

theorem monitor_run {o : Monitor.Obj σ C K V E} {s0 : σ} {f f' : Full σ C K V} {u : Tid} {b : Bool} {es : List (Monitor.Ev K V E)}
    (h : MonitorI o s0 f) (hs : f.step o (.run u b) = some (f', es)) (t : Nat) :
    ((f'.low.asleep t = true ∨ f'.mx.asleep t = true) ↔ ((f.low.asleep t = true ∨ f.mx.asleep t = true) ∨
      (t = u ∧ (monitor o).parks f (.run u b) = true)) ∧ t ∉ (monitor o).wakes f (.run u b)) ∧
    (t ≠ u → f'.mx.pc t = f.mx.pc t ∧ f'.low.pc t = f.low.pc t) := by
  have hI := h.inv
  obtain ⟨w1, w2, w3⟩ := C22_wakes_its_own o s0 f h
  simp only [Full.step, Full.runStep] at hs
  split at hs
  · rename_i hout
    split at hs
    · rename_i k hp
      simp only [Option.map_eq_some_iff, Prod.mk.injEq, Mutex.step, Mutex.St.goto] at hs
      obtain ⟨r, hr, rfl, rfl⟩ := hs
      split at hr <;> cases hr
      exact ⟨by simp [monitor, hout, hp], fun ht => by simp [ht]⟩
    · rename_i c k hp
      split at hs <;> cases hs
      exact ⟨by simp [monitor, hout, hp, Low.goto], fun ht => by simp [Low.goto, ht]⟩
    · rename_i p hna hny
      split at hs
      · rename_i hun
        simp only [Option.map_eq_some_iff, Prod.mk.injEq, Mutex.step, if_pos hout, Option.some.injEq] at hs
        obtain ⟨r, rfl, rfl, rfl⟩ := hs
        refine ⟨?_, fun ht => by simp [ht]⟩
        simp only [monitor, hout, if_true]
        cases hp : f.low.pc u <;> simp [hp, Pc.unlocking] at hun ⊢
      · rename_i hun
        simp only [Option.map_eq_some_iff, Prod.mk.injEq] at hs
        obtain ⟨⟨l, es'⟩, hl, rfl, rfl⟩ := hs
        have h1 := low_sleep hl t
        refine ⟨?_, fun ht => ⟨rfl, (run_pc_other (o := o) (t := u) hl).1 t ht⟩⟩
        simp only [monitor, hout, if_true]
        have hq : t ∈ (match f.low.pc u with
            | .sWake _ v _ _ => [v]
            | .sAll _ (v :: _) _ _ => [v]
            | _ => []) → f.mx.asleep t = false := by
          intro ht
          split at ht
          · rename_i c v l fn hp
            simp only [List.mem_singleton] at ht; subst ht
            exact (w2 u c t l fn hp).1
          · rename_i c v ws l fn hp
            simp only [List.mem_singleton] at ht; subst ht
            exact (w3 u c _ l fn hp t (by simp)).1
          · simp at ht
        constructor
        · rintro (h2 | h2)
          · rw [h1] at h2
            exact ⟨h2.1.elim (fun q => .inl (.inl q)) .inr, h2.2⟩
          · exact ⟨.inl (.inr h2), fun h3 => by rw [hq h3] at h2; cases h2⟩
        · rintro ⟨(h2 | h2) | h2, h3⟩
          · exact .inl (h1.2 ⟨.inl h2, h3⟩)
          · exact .inr h2
          · exact .inl (h1.2 ⟨.inr h2, h3⟩)
  · rename_i hout
    split at hs
    · cases hs
    · split at hs
      · cases hs
      · rename_i m es' hm
        have hm' : Mutex.step false f.mx (.run u b) = some (m, es') := hm
        have h1 := mutex_sleep hm' t
        have hf : f'.mx = m ∧ f'.low.asleep = f.low.asleep ∧ (t ≠ u → f'.low.pc t = f.low.pc t) := by
          split at hs
          · simp only [Option.some.injEq] at hs
            rw [← show (f.back m u es').1 = f' from congrArg Prod.fst hs]
            exact back_low
          · cases hs; exact ⟨rfl, rfl, fun _ => rfl⟩
        rw [hf.1, hf.2.1]
        refine ⟨?_, fun ht => ⟨h1.2 ht, hf.2.2 ht⟩⟩
        simp only [monitor, if_neg hout]
        have hq : t ∈ mutex.wakes f.mx (.run u b) → f.low.asleep t = false := by
          intro ht
          refine w1 t ?_
          simp only [mutex] at ht
          split at ht
          · split at ht
            · exact List.mem_of_mem_take ht
            · simp at ht
          · simp at ht
        constructor
        · rintro (h2 | h2)
          · exact ⟨.inl (.inl h2), fun h3 => by rw [hq h3] at h2; cases h2⟩
          · rw [h1.1] at h2
            exact ⟨h2.1.elim (fun q => .inl (.inr q)) .inr, h2.2⟩
        · rintro ⟨(h2 | h2) | h2, h3⟩
          · exact .inl h2
          · exact .inr (h1.1.2 ⟨.inl h2, h3⟩)
          · exact .inr (h1.1.2 ⟨.inr h2, h3⟩)

theorem monitor_laws (o : Monitor.Obj σ C K V E) (s0 : σ) : Laws (monitor o) (MonitorI o s0) where
  inv {f a f' es} h hs := by
    obtain ⟨as, tr, hr⟩ := h
    exact ⟨as ++ [a], tr ++ es, runs_append hr (by simp only [monitor] at hs; simp [runs, hs])⟩
  sleep {f a f' es} h hs t := by
    cases a with
    | run u b =>
      have := (monitor_run h hs t).1
      simpa [monitor] using this
    | call u k =>
      simp only [monitor, Full.step] at hs
      split at hs <;> cases hs
      simp [monitor, Low.goto]
  other {f a f' es} h hs t ht := by
    cases a with
    | run u b =>
      have := (monitor_run h hs t).2 ht
      simp [monitor, this.1, this.2]
    | call u k =>
      simp only [monitor] at ht
      simp only [monitor, Full.step] at hs
      split at hs <;> cases hs
      simp [monitor, Low.goto, ht]
  stay {f t} h hs := by
    have hI := h.inv
    simp only [monitor, Bool.or_eq_true] at hs ⊢
    split
    · rename_i hp
      exfalso
      rcases hs with hs | hs
      · have := hI.low.loc t
        rw [hp] at this
        simp only [LocP] at this
        rw [this.1] at hs; cases hs
      · have hl := hI.mx.loc t
        rcases hI.link t with ⟨h1, _⟩ | ⟨_, k, h2⟩ | ⟨_, h2⟩
        · simp only [Mutex.Loc, h1] at hl; rw [hl.2.2] at hs; cases hs
        · rw [hp] at h2; cases h2
        · rw [hp] at h2; cases h2
    · rfl
  blocked {f a} h hp hs := by
    have hI := h.inv
    cases a with
    | run u b =>
      simp only [monitor, Bool.or_eq_true, beq_iff_eq, Bool.and_eq_true] at hp hs ⊢
      simp only [Full.step, Full.runStep]
      rcases hp with hp | ⟨hp, hq⟩
      · rw [if_neg (by rw [hp]; simp)]
        split
        · rfl
        · rename_i hn
          have : f.mx.asleep u = true := by
            rcases hs with h1 | h1
            · exact absurd ⟨hp, h1⟩ hn
            · exact h1
          simp [Mutex.step, Mutex.runStep, hp, this]
      · rw [if_pos hp]
        split at hq
        · rename_i c k hpc
          simp only [hpc]
          rw [if_pos hs]
        · cases hq
    | call u k =>
      simp only [monitor, Bool.or_eq_true, beq_iff_eq, Bool.and_eq_true] at hp hs ⊢
      simp only [Full.step]
      rcases hp with hp | ⟨hp, hq⟩
      · rcases hI.link u with ⟨h1, _⟩ | ⟨_, j, h2⟩ | ⟨h1, _⟩
        · rw [hp] at h1; cases h1
        · rw [h2]
        · rw [hp] at h1; cases h1
      · split at hq
        · rename_i c j hpc; rw [hpc]
        · cases hq
  outside {f a} h hb ha := by
    have hI := h.inv
    cases a with
    | call u k => simp [monitor] at ha
    | run u b =>
      simp only [monitor] at hb ⊢
      split at hb
      · rename_i hp
        have hout : f.mx.pc u = .out := by
          rcases hI.link u with ⟨h1, _⟩ | ⟨_, k, h2⟩ | ⟨_, h2⟩
          · exact h1
          · rw [hp] at h2; cases h2
          · rw [hp] at h2; cases h2
        simp [Full.step, Full.runStep, hout, hp, Pc.unlocking, Low.runStep]
      · cases hb

theorem monitor_init (o : Monitor.Obj σ C K V E) (s0 : σ) : MonitorI o s0 (Full.init s0) := ⟨[], [], rfl⟩

end

end Verif.Compose
