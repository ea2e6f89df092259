import Verif.Monitor.AbsTerm
import Verif.Sync.MutexProps

/-!
# Monitors on top of the real mutex (C22)

The machine of Verif/Monitor/Low.lean takes the mutex as a correct lock. Here it is `co_mutex` as modelled in
Verif/Sync/Mutex.lean: `lock()` and `unlock()` are calls with many steps, in which other coroutines' steps may fall, and
a coroutine sleeps if it waits for the mutex or for a condition variable. Every execution of this machine is an execution of
`Low`, so everything proved about the monitor objects over `Low` holds for it.

Simplified: the spinlocks (`spinlock__` of the mutex, `cv_lock__` of the condition variables) are taken in one step
(Verif/Sync/Spinlock.lean has their steps).
-/

namespace Verif.Monitor
section
variable {σ C K V E : Type} [DecidableEq C]

/-- The object and its mutex. In `low` the field `mtx` is ghost: it is never read by `Full.step`. `err`: `unlock()` has thrown
(co_mutex.cpp:90-93). -/
structure Full (σ C K V : Type) where
  low : Low σ C K V
  mx : Mutex.St
  err : Bool

/-- Initially nobody is in a call. (Concerns co_mutex.cpp:17-108, co_condition_variable.h:52-90.) -/
def Full.init (s0 : σ) : Full σ C K V := ⟨Low.init s0, Mutex.St.init, false⟩

/-- A client calls; a coroutine inside a call makes its next step. `expired` is what the clock says if it looks at it in the spin
phase of `lock()` (co_utils.cpp:10). -/
inductive FAct (K : Type)
  | call (t : Tid) (k : K)
  | run (t : Tid) (expired : Bool)

/-- `lock()` has returned to `t`. (Concerns co_mutex.cpp:17-108, co_condition_variable.h:52-90.) -/
def Low.locked (s : Low σ C K V) (t : Tid) : Low σ C K V :=
  match s.pc t with
  | .acq k => { s with mtx := some t, pc := upd s.pc t (.exec k) }
  | _ => s

/-- `unlock()` has returned to `t`. (Concerns co_mutex.cpp:17-108, co_condition_variable.h:52-90.) -/
def Low.unlocked (s : Low σ C K V) (t : Tid) : Low σ C K V × List (Ev K V E) :=
  match s.pc t with
  | .sig [] (.ret v) => ({ s with mtx := none, pc := upd s.pc t .idle }, [.ret t v])
  | .sig [] (.next k) => ({ s with mtx := none, pc := upd s.pc t (.acq k) }, [])
  | .pUnlk c k => ({ s with mtx := none, pc := upd s.pc t (.pSleep c k) }, [])
  | _ => (s, [])

/-- The points at which a coroutine calls `unlock()`: the end of a section (destructor of `unique_lock`), or
co_condition_variable.h:61. -/
def Pc.unlocking : Pc C K V → Bool
  | .sig [] (.ret _) => true
  | .sig [] (.next _) => true
  | .pUnlk _ _ => true
  | _ => false

/-- What the end of a call of the mutex, which reported `es`, means for `t`. (Concerns co_mutex.cpp:17-108, co_condition_variable.h:52-90.) -/
def Full.back (f : Full σ C K V) (m : Mutex.St) (t : Tid) : List LockSpec.Ev → Full σ C K V × List (Ev K V E)
  | [.acq _] => (⟨f.low.locked t, m, f.err⟩, [])
  | [.unlockRet _ true] => (⟨(f.low.unlocked (E := E) t).1, m, f.err⟩, (f.low.unlocked t).2)
  | _ => (⟨f.low, m, true⟩, [])

/-- Next step of coroutine `t`: inside a call of the mutex; at a call of it; elsewhere as in `Low`. A coroutine that has yielded is
resumed if it waits for nothing (co_ctx.cpp:141-144). -/
def Full.runStep (o : Obj σ C K V E) (f : Full σ C K V) (t : Tid) (b : Bool) : Option (Full σ C K V × List (Ev K V E)) :=
  if f.mx.pc t = .out then
    match f.low.pc t with
    | .acq _ => (Mutex.step true f.mx (.callLock t)).map fun r => (⟨f.low, r.1, f.err⟩, [])
    | .pYield c k =>
      if f.low.asleep t ∨ f.mx.asleep t then none
      else some (⟨f.low.goto t (.acq k), f.mx, f.err⟩, [])
    | p =>
      if p.unlocking then (Mutex.step true f.mx (.callUnlock t)).map fun r => (⟨f.low, r.1, f.err⟩, [])
      else (f.low.runStep o t).map fun r => (⟨r.1, f.mx, f.err⟩, r.2)
  else if f.mx.pc t = .lkParked ∧ f.low.asleep t = true then none
  else match Mutex.step true f.mx (.run t b) with
    | none => none
    | some (m, es) => if m.pc t = .out then some (f.back m t es) else some (⟨f.low, m, f.err⟩, [])

/-- One step. (co_mutex.cpp:17-108, co_condition_variable.h:52-90, co_condition_variable.cpp:18-40.) -/
def Full.step (o : Obj σ C K V E) (f : Full σ C K V) : FAct K → Option (Full σ C K V × List (Ev K V E))
  | .call t k =>
    match f.low.pc t with
    | .idle => some (⟨f.low.goto t (.acq k), f.mx, f.err⟩, [.call t k])
    | _ => none
  | .run t b => f.runStep o t b

/-! ## Invariant -/

/-- Proof device: the points of `lock()`. (Concerns co_mutex.cpp:17-108, co_condition_variable.h:52-90.) -/
def inLock : Mutex.Pc → Bool
  | .lkAcq | .lkSpin | .lkYield | .lkReacq | .lkCheck | .lkLoop | .lkSleep | .lkParked | .lkReacq2 | .lkRet => true
  | _ => false

/-- Proof device: the points of an `unlock()` by the holder. (Concerns co_mutex.cpp:17-108, co_condition_variable.h:52-90.) -/
def inUnlock : Mutex.Pc → Bool
  | .ulAcq h | .ulTest h | .ulRet h => h
  | _ => false

/-- Proof device: how the two program counters of a coroutine fit together. (Concerns co_mutex.cpp:17-108, co_condition_variable.h:52-90.) -/
def Link (p : Pc C K V) (q : Mutex.Pc) (hold : Bool) : Prop :=
  (q = .out ∧ hold = p.hasM) ∨ (inLock q = true ∧ ∃ k, p = .acq k) ∨ (inUnlock q = true ∧ p.unlocking = true)

theorem unlocking_hasM {p : Pc C K V} (h : p.unlocking = true) : p.hasM = true := by
  cases p <;> simp_all [Pc.unlocking, Pc.hasM]

/-- Proof device. (Concerns co_mutex.cpp:17-108, co_condition_variable.h:52-90.) -/
structure Full.Inv (f : Full σ C K V) : Prop where
  low : f.low.Inv
  mx : Mutex.Inv f.mx
  link : ∀ t, Link (f.low.pc t) (f.mx.pc t) (f.mx.hold t)
  err : f.err = false

theorem Full.inv_init (s0 : σ) : (Full.init s0 : Full σ C K V).Inv :=
  ⟨Low.inv_init s0, Mutex.inv_init, fun _ => .inl ⟨rfl, rfl⟩, rfl⟩

/-- Who has the object's mutex owns `co_mutex`, until the last step of `unlock()`. -/
theorem Full.Inv.owner {f : Full σ C K V} (h : f.Inv) {u : Tid} (hu : (f.low.pc u).hasM = true) :
    f.mx.owner = some u ∨ f.mx.pc u = .ulRet true := by
  have hl := h.mx.loc u
  rcases h.link u with ⟨h1, h2⟩ | ⟨h1, k, h2⟩ | ⟨h1, h2⟩
  · simp only [Mutex.Loc, h1] at hl
    exact .inl (hl.1.1 (by rw [h2, hu]))
  · rw [h2] at hu; simp [Pc.hasM] at hu
  · cases hp : f.mx.pc u <;> simp [hp, inUnlock] at h1
    all_goals try simp only [Mutex.Loc, hp] at hl
    · subst h1; exact .inl (hl.2.1.1 rfl)
    · subst h1; exact .inl (hl.2.1.1 rfl)
    · subst h1; exact .inr rfl

/-- When `lock()` returns nobody has the mutex. -/
theorem Full.Inv.free {f : Full σ C K V} (h : f.Inv) {t : Tid} (ht : f.mx.pc t = .lkRet) : f.low.mtx = none := by
  cases hm : f.low.mtx with
  | none => rfl
  | some u =>
    exfalso
    have hu := (h.low.m u).2 hm
    have hl := h.mx.loc t
    simp only [Mutex.Loc, ht] at hl
    have hst := (h.mx.spin t).1 (by simp [ht, Mutex.Pc.spin])
    have hut : u ≠ t := by
      rintro rfl
      rcases h.link u with ⟨h1, _⟩ | ⟨_, k, h2⟩ | ⟨h1, _⟩
      · rw [ht] at h1; cases h1
      · rw [h2] at hu; simp [Pc.hasM] at hu
      · rw [ht] at h1; simp [inUnlock] at h1
    rcases h.owner hu with h1 | h1
    · rw [hl.2.1] at h1; simp at h1; exact hut h1.symm
    · have := (h.mx.spin u).1 (by simp [h1, Mutex.Pc.spin])
      rw [hst] at this; simp at this; exact hut this.symm

theorem mutex_false {m m' : Mutex.St} {a : Mutex.Act} {es : List LockSpec.Ev} (hs : Mutex.step true m a = some (m', es))
    (hh : ∀ t, a = .callLock t → m.hold t = false) : Mutex.step false m a = some (m', es) := by
  cases a with
  | callLock t =>
    simp only [Mutex.step] at hs ⊢
    have := hh t rfl
    grind
  | _ => exact hs

theorem mutex_other {m m' : Mutex.St} {t u : Tid} {b : Bool} {es : List LockSpec.Ev} (hs : Mutex.step true m (.run t b) = some (m', es))
    (hu : u ≠ t) : m'.pc u = m.pc u ∧ m'.hold u = m.hold u := by
  simp only [Mutex.step, Mutex.runStep] at hs
  cases hp : m.pc t <;> simp only [hp, Mutex.St.acquire, Mutex.St.goto] at hs <;> (repeat' split at hs) <;> cases hs <;>
    simp [hu]

theorem mutex_lock {m m' : Mutex.St} {t : Tid} {b : Bool} {es : List LockSpec.Ev} (hs : Mutex.step true m (.run t b) = some (m', es))
    (hp : inLock (m.pc t) = true) :
    (inLock (m'.pc t) = true ∧ m'.pc t ≠ .out ∧ es = []) ∨
    (m.pc t = .lkRet ∧ m'.pc t = .out ∧ m'.hold t = true ∧ es = [.acq t]) := by
  simp only [Mutex.step, Mutex.runStep] at hs
  cases hq : m.pc t <;> simp only [hq, inLock, Bool.false_eq_true] at hp
  all_goals
    simp only [hq, Mutex.St.acquire, Mutex.St.goto] at hs
    (repeat' split at hs) <;> cases hs <;> simp [inLock]

theorem mutex_unlock {m m' : Mutex.St} {t : Tid} {b : Bool} {es : List LockSpec.Ev} (hI : Mutex.Inv m)
    (hs : Mutex.step true m (.run t b) = some (m', es)) (hp : inUnlock (m.pc t) = true) :
    (inUnlock (m'.pc t) = true ∧ m'.pc t ≠ .out ∧ es = []) ∨
    (m.pc t = .ulRet true ∧ m'.pc t = .out ∧ m'.hold t = false ∧ es = [.unlockRet t true]) := by
  have hl := hI.loc t
  simp only [Mutex.step, Mutex.runStep] at hs
  cases hq : m.pc t <;> simp only [hq, inUnlock, Bool.false_eq_true] at hp
  all_goals
    simp only [Mutex.Loc, hq] at hl
    simp only [hq, Mutex.St.acquire, Mutex.St.goto] at hs
    (repeat' split at hs) <;> cases hs <;> simp_all [inUnlock]

theorem low_hasM {o : Obj σ C K V E} {s s' : Low σ C K V} {t : Tid} {es : List (Ev K V E)} (hs : s.runStep o t = some (s', es))
    (h1 : ∀ k, s.pc t ≠ .acq k) (h2 : (s.pc t).unlocking = false) : (s'.pc t).hasM = (s.pc t).hasM := by
  simp only [Low.runStep] at hs
  cases hp : s.pc t
  case sig l fn =>
    rcases l with _ | ⟨g, l⟩
    · cases fn <;> simp only [hp, Pc.unlocking, Bool.true_eq_false] at hs h2
      split at hs <;> cases hs
      simp [Pc.hasM]
    · simp only [hp] at hs
      split at hs <;> cases hs
      simp [Pc.hasM]
  case sGo g l fn =>
    cases g <;> simp only [hp] at hs
    · split at hs <;> cases hs <;> simp [Pc.hasM, Low.goto]
    · cases hs; simp [Pc.hasM, Low.goto]
  case sAll c ws l fn =>
    cases ws <;> simp only [hp] at hs <;> cases hs <;> simp [Pc.hasM]
  all_goals simp only [hp] at hs
  all_goals first
    | (exfalso; exact h1 _ hp)
    | (simp only [hp, Pc.unlocking, Bool.true_eq_false] at h2; done)
    | (cases hs; done)
    | (cases hs; simp [Pc.hasM, Low.goto]; done)
    | (split at hs <;> cases hs <;> simp [Pc.hasM, Low.goto])

theorem Full.sim_step {o : Obj σ C K V E} {f f' : Full σ C K V} {a : FAct K} {es : List (Ev K V E)} (h : f.Inv)
    (hs : f.step o a = some (f', es)) :
    f'.Inv ∧ ((es = [] ∧ f'.low = f.low) ∨ ∃ x, f.low.step o x = some (f'.low, es) ∧ ∀ t b, a = .run t b → x = .run t) := by
  cases a with
  | call t k =>
    simp only [Full.step] at hs
    split at hs <;> cases hs
    rename_i hp
    have hlow : f.low.step o (.call t k) = some (f.low.goto t (.acq k), [.call t k]) := by simp [Low.step, hp]
    refine ⟨⟨Low.inv_step _ _ _ _ h.low hlow, h.mx, ?_, h.err⟩, .inr ⟨_, hlow, by simp⟩⟩
    intro u
    by_cases hu : u = t
    · subst hu
      rcases h.link u with ⟨h1, h2⟩ | ⟨_, j, h2⟩ | ⟨_, h2⟩
      · left; simp only [Low.goto, upd_same]; exact ⟨h1, by rw [h2, hp]; rfl⟩
      · rw [hp] at h2; cases h2
      · rw [hp] at h2; cases h2
    · simp only [Low.goto, upd_other _ _ hu]; exact h.link u
  | run t b =>
    simp only [Full.step, Full.runStep] at hs
    split at hs
    · rename_i hout
      have hlk : f.mx.hold t = (f.low.pc t).hasM := by
        rcases h.link t with ⟨_, h2⟩ | ⟨h1, _⟩ | ⟨h1, _⟩
        · exact h2
        · rw [hout] at h1; cases h1
        · rw [hout] at h1; cases h1
      split at hs
      · -- call of lock()
        rename_i k hp
        simp only [Option.map_eq_some_iff, Prod.mk.injEq] at hs
        obtain ⟨⟨m, es'⟩, hm, rfl, rfl⟩ := hs
        have hh : f.mx.hold t = false := by rw [hlk, hp]; rfl
        have hm' := mutex_false hm (by rintro u hu; cases hu; exact hh)
        refine ⟨⟨h.low, Mutex.inv_step _ _ _ _ h.mx hm', ?_, h.err⟩, .inl ⟨rfl, rfl⟩⟩
        simp only [Mutex.step, Mutex.St.goto] at hm
        split at hm <;> cases hm
        intro u
        by_cases hu : u = t
        · subst hu; right; left; simp only [upd_same]; exact ⟨rfl, k, hp⟩
        · simp only [upd_other _ _ hu]; exact h.link u
      · -- resumed by a notification
        rename_i c k hp
        split at hs <;> cases hs
        rename_i hsl
        have hlow : f.low.step o (.run t) = some (f.low.goto t (.acq k), []) := by
          simp only [Low.step, Low.runStep, hp]
          rw [if_neg (fun hx => hsl (.inl hx))]
        refine ⟨⟨Low.inv_step _ _ _ _ h.low hlow, h.mx, ?_, h.err⟩, .inr ⟨_, hlow, by rintro u b' hu; cases hu; rfl⟩⟩
        intro u
        by_cases hu : u = t
        · subst hu; left; simp only [Low.goto, upd_same]; exact ⟨hout, by rw [hlk, hp]; rfl⟩
        · simp only [Low.goto, upd_other _ _ hu]; exact h.link u
      · rename_i p hna hny
        split at hs
        · -- call of unlock()
          rename_i hun
          simp only [Option.map_eq_some_iff, Prod.mk.injEq] at hs
          obtain ⟨⟨m, es'⟩, hm, rfl, rfl⟩ := hs
          have hm' := mutex_false hm (by rintro u hu; cases hu)
          refine ⟨⟨h.low, Mutex.inv_step _ _ _ _ h.mx hm', ?_, h.err⟩, .inl ⟨rfl, rfl⟩⟩
          simp only [Mutex.step, if_pos hout, Option.some.injEq, Prod.mk.injEq] at hm
          obtain ⟨rfl, _⟩ := hm
          intro u
          by_cases hu : u = t
          · subst hu; right; right; simp only [upd_same]
            exact ⟨by simp only [inUnlock]; rw [hlk]; exact unlocking_hasM hun, hun⟩
          · simp only [upd_other _ _ hu]; exact h.link u
        · -- any other step
          rename_i hun
          simp only [Option.map_eq_some_iff, Prod.mk.injEq] at hs
          obtain ⟨⟨l, es'⟩, hl, rfl, rfl⟩ := hs
          have hlow : f.low.step o (.run t) = some (l, es') := hl
          refine ⟨⟨Low.inv_step _ _ _ _ h.low hlow, h.mx, ?_, h.err⟩, .inr ⟨_, hlow, by rintro u b' hu; cases hu; rfl⟩⟩
          intro u
          by_cases hu : u = t
          · subst hu; left
            exact ⟨hout, by rw [hlk, low_hasM hl hna (by simpa using hun)]⟩
          · simp only [(run_pc_other hlow).1 u hu]; exact h.link u
    · rename_i hout
      split at hs
      · cases hs
      · split at hs
        · cases hs
        · rename_i m es' hm
          have hm' := mutex_false hm (by rintro u hu; cases hu)
          have hI := Mutex.inv_step _ _ _ _ h.mx hm'
          rcases h.link t with ⟨h1, _⟩ | ⟨h1, k, h2⟩ | ⟨h1, h2⟩
          · exact absurd h1 hout
          · rcases mutex_lock hm h1 with ⟨h3, h4, rfl⟩ | ⟨h3, h4, h5, rfl⟩
            · rw [if_neg h4] at hs; cases hs
              refine ⟨⟨h.low, hI, ?_, h.err⟩, .inl ⟨rfl, rfl⟩⟩
              intro u
              by_cases hu : u = t
              · subst hu; exact .inr (.inl ⟨h3, k, h2⟩)
              · obtain ⟨q1, q2⟩ := mutex_other hm hu
                simp only [q1, q2]; exact h.link u
            · rw [if_pos h4] at hs; cases hs
              have hfree := h.free h3
              have hlow : f.low.step o (.run t) = some (f.low.locked t, []) := by
                simp [Low.step, Low.runStep, h2, hfree, Low.locked]
              refine ⟨⟨Low.inv_step _ _ _ _ h.low hlow, hI, ?_, h.err⟩, .inr ⟨_, hlow, by rintro u b' hu; cases hu; rfl⟩⟩
              intro u
              by_cases hu : u = t
              · subst hu; left
                exact ⟨h4, by simp [Full.back, Low.locked, h2, Pc.hasM, h5]⟩
              · obtain ⟨q1, q2⟩ := mutex_other hm hu
                have := (run_pc_other hlow).1 u hu
                simp only [Full.back, q1, q2, this]; exact h.link u
          · rcases mutex_unlock h.mx hm h1 with ⟨h3, h4, rfl⟩ | ⟨h3, h4, h5, rfl⟩
            · rw [if_neg h4] at hs; cases hs
              refine ⟨⟨h.low, hI, ?_, h.err⟩, .inl ⟨rfl, rfl⟩⟩
              intro u
              by_cases hu : u = t
              · subst hu; exact .inr (.inr ⟨h3, h2⟩)
              · obtain ⟨q1, q2⟩ := mutex_other hm hu
                simp only [q1, q2]; exact h.link u
            · rw [if_pos h4] at hs; cases hs
              have hlow : f.low.step o (.run t) = some (f.low.unlocked t) ∧ (((f.low.unlocked t : Low σ C K V × List (Ev K V E)).1).pc t).hasM = false := by
                simp only [Low.step, Low.runStep, Low.unlocked]
                cases hp : f.low.pc t <;> simp only [hp, Pc.unlocking, Bool.false_eq_true] at h2
                · rename_i l fn
                  rcases l with _ | ⟨g, l⟩
                  · cases fn <;> simp [Pc.hasM] at h2 ⊢
                  · simp at h2
                · simp [Pc.hasM]
              refine ⟨⟨Low.inv_step _ _ _ _ h.low hlow.1, hI, ?_, h.err⟩, .inr ⟨_, hlow.1, by rintro u b' hu; cases hu; rfl⟩⟩
              intro u
              by_cases hu : u = t
              · subst hu; left
                exact ⟨h4, by simp only [Full.back]; rw [hlow.2, h5]⟩
              · obtain ⟨q1, q2⟩ := mutex_other hm hu
                have := (run_pc_other (s' := (f.low.unlocked (E := E) t).1) (es := (f.low.unlocked t).2) hlow.1).1 u hu
                show Link _ _ _
                rw [q1, q2]
                simp only [Full.back]
                rw [this]; exact h.link u

/-- Proof device: executions of the machine with the real mutex are executions of the one with an ideal mutex. -/
theorem Full.sim {o : Obj σ C K V E} : ∀ (as : List (FAct K)) (f f' : Full σ C K V) (es : List (Ev K V E)), f.Inv →
    runs (Full.step o) f as = some (f', es) → f'.Inv ∧ ∃ bs, runs (Low.step o) f.low bs = some (f'.low, es) := by
  intro as
  induction as with
  | nil =>
    intro f f' es hI h
    simp only [runs, Option.some.injEq, Prod.mk.injEq] at h
    obtain ⟨rfl, rfl⟩ := h
    exact ⟨hI, [], rfl⟩
  | cons a as ih =>
    intro f f' es hI h
    obtain ⟨f1, e1, e2, h1, h2, rfl⟩ := runs_cons h
    obtain ⟨hI1, hs⟩ := Full.sim_step hI h1
    obtain ⟨hI', bs, hb⟩ := ih f1 f' e2 hI1 h2
    refine ⟨hI', ?_⟩
    rcases hs with ⟨rfl, he⟩ | ⟨x, hx, _⟩
    · exact ⟨bs, by rw [← he]; simpa using hb⟩
    · exact ⟨x :: bs, by simp only [runs, hx, hb]⟩

theorem Full.sim_init {o : Obj σ C K V E} {s0 : σ} {as : List (FAct K)} {f : Full σ C K V} {es : List (Ev K V E)}
    (h : runs (Full.step o) (Full.init s0) as = some (f, es)) :
    f.Inv ∧ ∃ bs, runs (Low.step o) (Low.init s0) bs = some (f.low, es) :=
  Full.sim as _ f es (Full.inv_init s0) h

/-- C22 over the real mutex: a monitor object whose mutex is `co_mutex` does nothing it could not do with an ideal lock: the same
calls, events and returns, the same data, the same waiting coroutines; and no `unlock()` throws. -/
theorem C22_real_mutex (o : Obj σ C K V E) (s0 : σ) (as : List (FAct K)) (f : Full σ C K V) (es : List (Ev K V E))
    (h : runs (Full.step o) (Full.init s0) as = some (f, es)) :
    f.err = false ∧ (∃ bs, runs (Low.step o) (Low.init s0) bs = some (f.low, es)) ∧
      ∃ cs, runs (Abs.step o) (Abs.init s0) cs = some (f.low.abs, es) := by
  obtain ⟨hI, bs, hb⟩ := Full.sim_init h
  exact ⟨hI.err, ⟨bs, hb⟩, C22_critical_sections_atomic o s0 bs f.low es hb⟩

/-- C22, one flag: `co_ctx` has a single wait flag, the model one for the mutex and one for the condition variables. It makes no
difference: whom `unlock()` wakes does not wait for a notification, whom a notification wakes does not wait for the mutex. -/
theorem C22_wakes_its_own (o : Obj σ C K V E) (s0 : σ) (f : Full σ C K V) (h : Reach (Full.step o) (Full.init s0) f) :
    (∀ v, v ∈ f.mx.queue → f.low.asleep v = false) ∧
    (∀ t c v l fn, f.low.pc t = .sWake c v l fn → f.mx.asleep v = false ∧ f.mx.pc v = .out) ∧
    (∀ t c ws l fn, f.low.pc t = .sAll c ws l fn → ∀ v, v ∈ ws → f.mx.asleep v = false ∧ f.mx.pc v = .out) := by
  obtain ⟨as, es, h⟩ := h
  obtain ⟨hI, -⟩ := Full.sim_init h
  have hout : ∀ v c k, f.low.pc v = .pYield c k → f.mx.asleep v = false ∧ f.mx.pc v = .out := by
    intro v c k hv
    rcases hI.link v with ⟨h1, _⟩ | ⟨_, j, h2⟩ | ⟨_, h2⟩
    · have := hI.mx.loc v
      simp only [Mutex.Loc, h1] at this
      exact ⟨this.2.2, h1⟩
    · rw [hv] at h2; cases h2
    · rw [hv] at h2; cases h2
  refine ⟨?_, ?_, ?_⟩
  · intro v hv
    have h1 := hI.mx.loc v
    have h2 := hI.low.loc v
    rcases hI.link v with ⟨h3, _⟩ | ⟨h3, k, h4⟩ | ⟨h3, h4⟩
    · simp only [Mutex.Loc, h3] at h1; exact absurd hv h1.2.1
    · simp only [h4, LocP] at h2; exact h2.1
    · cases hq : f.mx.pc v <;> simp only [hq, inUnlock, Mutex.Loc, Bool.false_eq_true] at h1 h3
      all_goals exact absurd hv h1.2.2.1
  · intro t c v l fn hp
    have hm := (hI.low.m t).1 (by rw [hp]; rfl)
    have hcv := (hI.low.c t c).1 (by rw [hp]; rfl)
    have hl := hI.low.loc v
    have hw : f.low.waking c = some v := by rw [waking_of hm]; simp [hp]
    have hne : (f.low.pc v).hasC ≠ some c := by
      intro hc
      have := (hI.low.c v c).1 hc
      rw [hcv] at this; cases this
      rw [hp] at hl; simp only [LocP] at hl
      exact (hl.2 c).2 hw
    obtain ⟨⟨k, hk⟩, _⟩ := hl.woken hne (.inl hw)
    exact hout v c k hk
  · intro t c ws l fn hp v hv
    have hm := (hI.low.m t).1 (by rw [hp]; rfl)
    have hcv := (hI.low.c t c).1 (by rw [hp]; rfl)
    have hl := hI.low.loc v
    have hw : v ∈ f.low.eff c := by rw [eff_of hm]; simp [hp, hv]
    have hne : (f.low.pc v).hasC ≠ some c := by
      intro hc
      have := (hI.low.c v c).1 hc
      rw [hcv] at this; cases this
      rw [hp] at hl; simp only [LocP] at hl
      exact (hl.2 c).1 hw
    obtain ⟨⟨k, hk⟩, _⟩ := hl.woken hne (.inr hw)
    exact hout v c k hk

/-- C22 over the real mutex, progress: if nobody can make a step, nobody could with an ideal mutex: nobody is left waiting for the
mutex, everybody inside a call waits for a notification. -/
theorem C22_real_mutex_stuck (o : Obj σ C K V E) (s0 : σ) (f : Full σ C K V) (h : Reach (Full.step o) (Full.init s0) f)
    (hst : ∀ t b, f.step o (.run t b) = none) :
    (∀ t, f.mx.pc t = .out) ∧ (∀ t, f.low.step o (.run t) = none) ∧
      ∀ t, f.low.pc t = .idle ∨ ∃ c k, f.low.pc t = .pYield c k ∧ f.low.asleep t = true ∧ t ∈ f.low.wl c := by
  obtain ⟨as, es, h⟩ := h
  obtain ⟨hI, bs, hb⟩ := Full.sim_init h
  have hmx : ∀ t b, f.mx.pc t ≠ .out → Mutex.step false f.mx (.run t b) = none := by
    intro t b ht
    have h1 := hst t b
    simp only [Full.step, Full.runStep, if_neg ht] at h1
    have hns : ¬ (f.mx.pc t = .lkParked ∧ f.low.asleep t = true) := by
      rintro ⟨hp, hs⟩
      have h2 := hI.low.loc t
      rcases hI.link t with ⟨h3, _⟩ | ⟨_, k, h4⟩ | ⟨h3, _⟩
      · exact ht h3
      · simp only [h4, LocP] at h2; rw [hs] at h2; simp at h2
      · rw [hp] at h3; cases h3
    rw [if_neg hns] at h1
    cases hm : Mutex.step true f.mx (.run t b) with
    | none => simpa [Mutex.step] using hm
    | some r =>
      obtain ⟨m, e⟩ := r
      rw [hm] at h1
      simp only at h1
      split at h1 <;> cases h1
  have hmx' : ∀ t b, Mutex.step false f.mx (.run t b) = none := by
    intro t b
    by_cases ht : f.mx.pc t = .out
    · simp [Mutex.step, Mutex.runStep, ht]
    · exact hmx t b ht
  -- steps outside the mutex
  have hlow : ∀ t, f.mx.pc t = .out → (f.low.pc t).unlocking = false ∧ (∀ k, f.low.pc t ≠ .acq k) ∧ f.low.step o (.run t) = none := by
    intro t ht
    have h1 := hst t true
    simp only [Full.step, Full.runStep, if_pos ht] at h1
    have hasl : f.mx.asleep t = false := by
      have := hI.mx.loc t; simp only [Mutex.Loc, ht] at this; exact this.2.2
    cases hp : f.low.pc t with
    | acq k => simp [hp, Mutex.step, ht] at h1
    | pYield c k =>
      simp only [hp, hasl] at h1
      refine ⟨rfl, by simp, ?_⟩
      simp only [Low.step, Low.runStep, hp]
      split at h1
      · rename_i hh; simp at hh; simp [hh]
      · cases h1
    | _ =>
      simp only [hp] at h1
      split at h1
      · rename_i hu; simp [Mutex.step, ht] at h1
      · rename_i hu
        exact ⟨by simpa using hu, by simp, by simpa [Low.step] using h1⟩
  have hcv : ∀ c u, f.low.cv c = some u → f.mx.pc u ≠ .out := by
    intro c u hc hu
    have h1 := (hI.low.c u c).2 hc
    obtain ⟨h2, h3, h4⟩ := hlow u hu
    simp only [Low.step, Low.runStep] at h4
    cases hp : f.low.pc u <;> simp only [hp, Pc.hasC] at h1 h4 <;> first | (cases h1; done) | (cases h4; done) | skip
    · rename_i g l fn
      cases g <;> simp only at h4
      · split at h4 <;> cases h4
      · cases h4
    · rename_i d ws l fn
      cases ws <;> cases h4
  have hall : ∀ t, f.mx.pc t = .out := by
    intro t
    apply Classical.byContradiction
    intro ht
    obtain ⟨_, _, u, ho, hh, hu⟩ := Mutex.stuck f.mx hI.mx hmx' t ht
    have hM : (f.low.pc u).hasM = true := by
      rcases hI.link u with ⟨_, h2⟩ | ⟨h2, _⟩ | ⟨h2, _⟩
      · rw [← h2]; exact hh
      · rw [hu] at h2; cases h2
      · rw [hu] at h2; cases h2
    obtain ⟨h2, h3, h4⟩ := hlow u hu
    -- it waits for a condition variable's lock
    have key : ∀ c, f.low.cv c ≠ none → False := by
      intro c hc
      cases hcc : f.low.cv c with
      | none => exact hc hcc
      | some w =>
        have hw := hcv c w hcc
        obtain ⟨hw1, _⟩ := Mutex.stuck f.mx hI.mx hmx' w hw
        have h5 := (hI.low.c w c).2 hcc
        rcases hI.link w with ⟨h6, _⟩ | ⟨_, k, h6⟩ | ⟨h6, _⟩
        · exact hw h6
        · rw [h6] at h5; cases h5
        · rw [hw1] at h6; cases h6
    simp only [Low.step, Low.runStep] at h4
    cases hp : f.low.pc u <;> simp only [hp, Pc.hasM] at hM h4 <;> first | (cases hM; done) | (cases h4; done) | skip
    · rename_i l fn
      rcases l with _ | ⟨g, l⟩
      · rcases fn with v | v | ⟨c, k⟩
        · cases h4
        · cases h4
        · simp only at h4
          split at h4
          · cases h4
          · rename_i hc; exact key _ hc
      · simp only at h4
        split at h4
        · cases h4
        · rename_i hc; exact key _ hc
    · rename_i g l fn
      cases g <;> simp only at h4
      · split at h4 <;> cases h4
      · cases h4
    · rename_i d ws l fn
      cases ws <;> cases h4
  refine ⟨hall, fun t => (hlow t (hall t)).2.2, fun t => ?_⟩
  rcases C22_stuck_only_parked o s0 f.low ⟨bs, es, hb⟩ (fun t => (hlow t (hall t)).2.2) t with ⟨h1, _⟩ | ⟨c, k, h1, h2, h3, _⟩
  · exact .inl h1
  · exact .inr ⟨c, k, h1, h2, h3⟩

/-! ## Termination -/

/-- Proof device: steps a coroutine makes at most before the next step outside the mutex. (Concerns co_mutex.cpp:17-108, co_condition_variable.h:52-90.) -/
def frank (m : Mutex.St) (t : Tid) : Nat := if m.pc t = .out then 11 else Mutex.rank m t

/-- One step of a coroutine inside a call; the time for spinning in `lock()` (500 µs, co_mutex.cpp) is over whenever it is read. -/
def FullInt (o : Obj σ C K V E) (f' f : Full σ C K V) : Prop := ∃ t es, f.step o (.run t true) = some (f', es)

theorem full_acc (o : Obj σ C K V E) (L : List Tid) (hL : L.Nodup) (s : Low σ C K V)
    (ha : Acc (LowInt o) s) : ∀ f : Full σ C K V, f.Inv → f.low = s → f.low.Within L → Acc (FullInt o) f := by
  induction ha with
  | intro s _ ih =>
    intro f
    generalize hn : sumOver L (frank f.mx) = n
    induction n using Nat.strongRecOn generalizing f with
    | _ n ihn =>
      intro hI hab hw
      refine Acc.intro f (fun f' hf => ?_)
      obtain ⟨t, es, hs⟩ := hf
      obtain ⟨hI', hsim⟩ := Full.sim_step hI hs
      by_cases hlow : ∃ es, f.low.step o (.run t) = some (f'.low, es)
      · obtain ⟨es', he⟩ := hlow
        exact ih f'.low ⟨t, es', hab ▸ he⟩ f' hI' rfl (hw.step he)
      · have heq : f'.low = f.low := by
          rcases hsim with ⟨_, h2⟩ | ⟨x, h1, h2⟩
          · exact h2
          · rw [h2 t true rfl] at h1; exact absurd ⟨es, h1⟩ hlow
        have hidle : f.low.pc t ≠ .idle := by
          intro hi
          simp only [Full.step, Full.runStep] at hs
          split at hs
          · simp [hi, Pc.unlocking, Low.runStep] at hs
          · rename_i ho
            rcases hI.link t with ⟨h1, _⟩ | ⟨_, k, h2⟩ | ⟨_, h2⟩
            · exact ho h1
            · rw [hi] at h2; cases h2
            · rw [hi] at h2; cases h2
        have htL : t ∈ L := by
          apply Decidable.byContradiction; intro h; exact hidle (hw t h)
        suffices hr : (∀ u, u ≠ t → frank f'.mx u = frank f.mx u) ∧ frank f'.mx t < frank f.mx t by
          have hsum := sumOver_single (f := frank f'.mx) (g := frank f.mx) hL htL hr.1
          exact ihn (sumOver L (frank f'.mx)) (by omega) f' rfl hI' (heq.trans hab) (by rw [heq]; exact hw)
        simp only [Full.step, Full.runStep] at hs
        split at hs
        · rename_i hout
          have hcall : ∀ {a : Mutex.Act} {m : Mutex.St} {e : List LockSpec.Ev}, Mutex.step true f.mx a = some (m, e) →
              (a = .callLock t ∨ a = .callUnlock t) →
              (∀ u, u ≠ t → frank m u = frank f.mx u) ∧ frank m t < frank f.mx t := by
            intro a m e hm ha
            rcases ha with rfl | rfl
            · simp only [Mutex.step, Mutex.St.goto] at hm
              split at hm <;> cases hm
              refine ⟨fun u hu => ?_, ?_⟩
              · simp [frank, Mutex.rank, hu]
              · simp [frank, Mutex.rank, hout]
            · simp only [Mutex.step, if_pos hout, Option.some.injEq, Prod.mk.injEq] at hm
              obtain ⟨rfl, _⟩ := hm
              refine ⟨fun u hu => ?_, ?_⟩
              · simp [frank, Mutex.rank, hu]
              · simp [frank, Mutex.rank, hout]
          split at hs
          · simp only [Option.map_eq_some_iff, Prod.mk.injEq] at hs
            obtain ⟨⟨m, es'⟩, hm, rfl, rfl⟩ := hs
            exact hcall hm (.inl rfl)
          · rename_i c k hp
            split at hs <;> cases hs
            rename_i hsl
            exact absurd ⟨[], by
              simp only [Low.step, Low.runStep, hp]
              rw [if_neg (fun hx => hsl (.inl hx))]⟩ hlow
          · split at hs
            · simp only [Option.map_eq_some_iff, Prod.mk.injEq] at hs
              obtain ⟨⟨m, es'⟩, hm, rfl, rfl⟩ := hs
              exact hcall hm (.inr rfl)
            · simp only [Option.map_eq_some_iff, Prod.mk.injEq] at hs
              obtain ⟨⟨l, es'⟩, hl, rfl, rfl⟩ := hs
              exact absurd ⟨_, hl⟩ hlow
        · rename_i hout
          split at hs
          · cases hs
          · split at hs
            · cases hs
            · rename_i m es' hm
              have hm' := mutex_false hm (by rintro u hu; cases hu)
              have hmx : f'.mx = m := by
                split at hs
                · simp only [Option.some.injEq] at hs
                  have : f' = (f.back (E := E) m t es').1 := by rw [hs]
                  rw [this]; simp only [Full.back]; split <;> rfl
                · cases hs; rfl
              rw [hmx]
              by_cases hmo : m.pc t = .out
              · -- the call of the mutex returns: that is a step of the ideal machine
                exfalso
                rcases hsim with ⟨h1, h2⟩ | ⟨x, h1, h2⟩
                · rw [if_pos hmo] at hs
                  rcases hI.link t with ⟨q1, _⟩ | ⟨q1, k, q2⟩ | ⟨q1, q2⟩
                  · exact hout q1
                  · rcases mutex_lock hm q1 with ⟨_, q4, _⟩ | ⟨q3, _, _, rfl⟩
                    · exact q4 hmo
                    · cases hs
                      have := congrArg (fun l => l.pc t) h2
                      simp [Full.back, Low.locked, q2] at this
                  · rcases mutex_unlock hI.mx hm q1 with ⟨_, q4, _⟩ | ⟨q3, _, _, rfl⟩
                    · exact q4 hmo
                    · cases hs
                      have := congrArg (fun l => (l.pc t).hasM) h2
                      simp only [Full.back, unlocking_hasM q2] at this
                      simp only [Low.unlocked] at this
                      split at this <;> simp_all [Pc.hasM, Pc.unlocking]
                · rw [h2 t true rfl] at h1; exact hlow ⟨es, h1⟩
              · obtain ⟨r1, r2⟩ := Mutex.rank_step _ _ _ _ _ hI.mx hm'
                refine ⟨fun u hu => ?_, ?_⟩
                · simp only [frank, (r1 u hu).1, (r1 u hu).2]
                · simp only [frank, if_neg hmo, if_neg hout]; simp at r2; omega

/-- C22 over the real mutex, termination: if the object cannot go on for ever without new calls when its critical sections are single
steps, it cannot with every step of the mutex and of the condition variables, whatever the order in which coroutines run. -/
theorem C22_real_mutex_terminates (o : Obj σ C K V E) (s0 : σ) (as : List (FAct K)) (f : Full σ C K V)
    (es : List (Ev K V E)) (h : runs (Full.step o) (Full.init s0) as = some (f, es))
    (ha : Acc (AbsInt o) f.low.abs) :
    ¬ ∃ g : Nat → Full σ C K V, g 0 = f ∧ ∀ n, ∃ t e, (g n).step o (.run t true) = some (g (n + 1), e) := by
  obtain ⟨hI, bs, hb⟩ := Full.sim_init h
  obtain ⟨L, hn, hw⟩ := within_reach o s0 bs f.low es hb
  exact acc_no_infinite (full_acc o L hn _ (low_acc o L hn _ ha f.low hI.low rfl hw) f hI rfl hw)

end

/-- The gate over the real mutex: 1 takes the mutex; 2 calls meanwhile, spins out its time and goes to sleep in `lock()`; 1 finds the
gate shut, waits, its `unlock()` hands the mutex to 2. (Concerns co_mutex.cpp:17-108, co_condition_variable.h:52-90.) -/
def gateFull : List (FAct Bool) :=
  [.call 1 true] ++ List.replicate 5 (.run 1 true) ++ [.call 2 true] ++ List.replicate 6 (.run 2 true) ++ List.replicate 9 (.run 1 true)

/-- 1 waits at the gate, 2 owns the mutex and is about to find out. -/
example : (runs (Full.step gate) (Full.init false) gateFull).map (fun p => (p.1.low.pc 1, p.1.low.pc 2, p.1.mx.owner, p.1.mx.pc 2)) =
    some (.pYield () true, .acq true, some 2, .lkParked) := by decide

/-- Nobody can go on: both wait at the gate, and the mutex is free. -/
example : (runs (Full.step gate) (Full.init false) (gateFull ++ List.replicate 13 (.run 2 true))).map (fun p =>
    ((p.1.step gate (.run 1 true)).isNone, (p.1.step gate (.run 2 true)).isNone, p.1.low.wl (), p.1.mx.owner)) =
    some (true, true, [1, 2], none) := by decide

/-- The gate terminates from wherever it is. -/
example (as : List (FAct Bool)) (f : Full Bool Unit Bool Unit) (es : List (Ev Bool Unit Tid))
    (h : runs (Full.step gate) (Full.init false) as = some (f, es)) :
    ¬ ∃ g : Nat → Full Bool Unit Bool Unit, g 0 = f ∧ ∀ n, ∃ t e, (g n).step gate (.run t true) = some (g (n + 1), e) := by
  obtain ⟨_, bs, hb⟩ := Full.sim_init h
  obtain ⟨L, hn, hw⟩ := within_reach gate false bs f.low es hb
  refine C22_real_mutex_terminates gate false as f es h (abs_acc gate (fun _ => 1)
    (by intro t k sh; cases k <;> cases sh <;> simp [gate]) L hn f.low.abs (abs_wf gate false bs f.low es hb) ?_)
  intro u hu
  simp [Low.abs, hw u hu, thP]

end Verif.Monitor
